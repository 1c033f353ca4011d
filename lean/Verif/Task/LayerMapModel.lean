import Mathlib.Data.List.Basic
import Verif.Task.FlattenModel

/-!
# Model of the parameter-to-layer map and of `get_param(layer_split=True)` (`dattri/task.py`)

Names are lists of characters.
-/

namespace Verif.Task

/-- `s.split(".")`. -/
def splitDot : List Char → List (List Char)
  | [] => [[]]
  | c :: s =>
    if c = '.' then [] :: splitDot s
    else match splitDot s with
      | [] => [[c]]
      | w :: ws => (c :: w) :: ws

/-- `".".join(ws)`. -/
def joinDot : List (List Char) → List Char
  | [] => []
  | [w] => w
  | w :: v :: ws => w ++ '.' :: joinDot (v :: ws)

/-- `".".join(key.split(".")[:-1])` (task.py:204). -/
def layerOf (key : List Char) : List Char := joinDot (splitDot key).dropLast

/-- One iteration of the loop (task.py:203-208): state is `(current_layer, current_index, param_layer_map)`. -/
def mapStep (s : Option (List Char) × ℤ × List ℤ) (key : List Char) : Option (List Char) × ℤ × List ℤ :=
  let l := layerOf key
  if s.1 ≠ some l then (some l, s.2.1 + 1, s.2.2 ++ [s.2.1 + 1]) else (s.1, s.2.1, s.2.2 ++ [s.2.1])

/-- `_generate_param_layer_map` (task.py:179-210). -/
def genMap (keys : List (List Char)) : List ℤ := (keys.foldl mapStep (none, -1, [])).2.2

/-- The documented forms of `layer_name`: absent, a list of names, or a single string. -/
inductive LayerArg
  | none
  | names (ls : List (List Char))
  | str (s : List Char)

/-- What `for k in layer_name` iterates over: a Python string yields its characters. -/
def LayerArg.iter : LayerArg → Option (List (List Char))
  | .none => Option.none
  | .names ls => some ls
  | .str s => some (s.map fun c => [c])

/-- `k in d` / `d[k]` of a dictionary. -/
def find {V : Type} (d : List (List Char × V)) (k : List Char) : Option V := (d.find? (fun p => p.1 = k)).map (·.2)

/-- Keep the first occurrence of each key (a dictionary comprehension over a list with repetitions). -/
def firsts : List (List Char) → List (List Char)
  | [] => []
  | k :: ks => k :: (firsts ks).filter (· ≠ k)

/-- The selection of `get_param` (task.py:428-435): the requested names that exist, in the order of the request. -/
def selectParams {V : Type} (named : List (List Char × V)) (arg : LayerArg) : List (List Char × V) :=
  match arg.iter with
  | Option.none => named
  | some ls => (firsts ls).filterMap fun k => (find named k).map (fun v => (k, v))

/-- `get_param(..., layer_split=True, param_layer_map=m)` after loading (task.py:437-451): the tuple of flattened tensors and the map; an
explicit map is used when it is truthy (not `None`, not empty) and must have the right length. -/
def getParamSplit {R : Type} (named : List (List Char × Tens R)) (arg : LayerArg) (m : Option (List ℤ)) :
    Except Err (List (List R) × List ℤ) :=
  let sel := selectParams named arg
  match m with
  | some (x :: xs) =>
    if (x :: xs).length ≠ sel.length then .error .valueError else .ok (sel.map (fun p => p.2.data), x :: xs)
  | _ => .ok (sel.map (fun p => p.2.data), genMap (sel.map (·.1)))

/-- `get_param(..., layer_split=False)` after loading (task.py:452). -/
def getParamFlat {R : Type} (junk : ℕ → List R) (named : List (List Char × Tens R)) (arg : LayerArg) : Except Err (List R) :=
  flattenParams junk (selectParams named arg)

end Verif.Task
