import Verif.Base.Tensor
import Mathlib.Data.List.Basic
import Mathlib.Data.Rat.Defs

/-!
# Settings of the nanoGPT training script (`dattri/benchmark/models/nanoGPT/configurator.py`)

The file is executed by train.py:80 in the global scope of the script.  `literal_eval` and the execution of a configuration file are parameters.  Simplifications: the
variables the code itself assigns in the global scope (`arg`, `key`, `val`, `attempt`, `config_file`, `f`) are not settings and are left out.
-/

namespace Verif.Script.Config

/-- Strings. -/
abbrev Name := List Char

/-- Values of settings; `other` for anything else (lists, `None`, modules, functions), with its type and content as numbers. -/
inductive Val
  | int (n : ℤ)
  | float (x : ℚ)
  | bool (b : Bool)
  | str (s : Name)
  | other (ty content : ℕ)
  deriving DecidableEq

/-- Types; Python's `type(x) == type(y)` distinguishes `bool` from `int` (configurator.py:42). -/
inductive Ty
  | int
  | float
  | bool
  | str
  | other (ty : ℕ)
  deriving DecidableEq

/-- `type(x)` (configurator.py:42). -/
def Val.type : Val → Ty
  | .int _ => .int
  | .float _ => .float
  | .bool _ => .bool
  | .str _ => .str
  | .other t _ => .other t

/-- `globals()`. -/
abbrev Env := Name → Option Val

/-- Outcome of `literal_eval`: a value; `SyntaxError` or `ValueError`; another exception (configurator.py:35-40). -/
inductive Lit
  | value (v : Val)
  | malformed
  | raises (e : Err)

/-- `arg.startswith('--')`. -/
def dashed (arg : Name) : Bool := arg.take 2 == ['-', '-']

/-- The value tried for a setting (configurator.py:35-40). -/
def attempt (lit : Name → Lit) (val : Name) : Except Err Val :=
  match lit val with
  | .value v => .ok v
  | .malformed => .ok (.str val)
  | .raises e => .error e

/-- `globals()[key] = attempt` (configurator.py:45). -/
def Env.set (g : Env) (k : Name) (v : Val) : Env := fun k' => if k' = k then some v else g k'

/-- Setting one key (configurator.py:34-47). -/
def override (lit : Name → Lit) (g : Env) (key val : Name) : Except Err Env :=
  match g key with
  | none => .error .valueError
  | some old =>
    match attempt lit val with
    | .error e => .error e
    | .ok v => if v.type = old.type then .ok (g.set key v) else .error .assertionError

/-- One argument of the command line (configurator.py:21-47). -/
def step (lit : Name → Lit) (exec : Name → Env → Except Err Env) (g : Env) (arg : Name) : Except Err Env :=
  if '=' ∉ arg then
    if dashed arg then .error .assertionError else exec arg g
  else if !dashed arg then .error .assertionError
  else if arg.count '=' ≠ 1 then .error .valueError
  else override lit g ((arg.takeWhile (· ≠ '=')).drop 2) ((arg.dropWhile (· ≠ '=')).drop 1)

/-- The loop over `sys.argv[1:]` (configurator.py:20). -/
def run (lit : Name → Lit) (exec : Name → Env → Except Err Env) (g : Env) (args : List Name) : Except Err Env := args.foldlM (step lit exec) g

/-- The settings of train.py that concern the training data (dattri/benchmark/models/nanoGPT/train.py:48-50): `subset_ratio` is an integer, `dataset_path` is not among the settings. -/
def defaults : Env := fun k =>
  if k = "seed".toList then some (.int 42)
  else if k = "subset_ratio".toList then some (.int 1)
  else if k = "dataset".toList then some (.str "openwebtext".toList)
  else none

end Verif.Script.Config
