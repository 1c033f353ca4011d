import Mathlib.Data.List.Basic
import Verif.Base.Tensor
import Verif.Projection.BasicModel

/-!
# Model of `_parse_grass_projection_type` and of the argument checks of `random_project` (`dattri/func/projection.py`)

Strings are lists of characters; Python's `int(str)` is a parameter `pyInt` (`none` = `ValueError`).
-/

namespace Verif.Projection

/-- `s.split("_")`: the pieces between underscores. -/
def splitU : List Char → List (List Char)
  | [] => [[]]
  | c :: s =>
    if c = '_' then [] :: splitU s
    else match splitU s with
      | [] => [[c]]
      | w :: ws => (c :: w) :: ws

/-- The characters of "grass". -/
def grassStr : List Char := ['g', 'r', 'a', 's', 's']

/-- `_parse_grass_projection_type` (projection.py:108-132). -/
def parseGrass (pyInt : List Char → Option ℤ) (s : List Char) : Except Err (List Char × ℤ) :=
  if grassStr.isPrefixOf s && s.contains '_' then
    let parts := splitU s
    if parts.length = 2 then
      match pyInt (parts.getD 1 []) with
      | some n => .ok (grassStr, n)
      | none => .error .valueError
    else .ok (grassStr, 4)
  else .ok (s, 4)

/-- The device types. -/
inductive Dev
  | cpu
  | cuda
  | other
  deriving DecidableEq

/-- `proj_type_mapping` (projection.py:1334-1341) as a partial function. -/
def kindOf (s : List Char) : Option Kind :=
  if s = "identity".toList then some .identity
  else if s = "rademacher".toList then some .rademacher
  else if s = "normal".toList then some .normal
  else if s = "random_mask".toList then some .randomMask
  else if s = "sjlt".toList then some .sjlt
  else if s = "grass".toList then some .grass
  else none

/-- `valid_proj_types` (projection.py:1343-1346). -/
def validOn : Dev → Kind → Bool
  | .cpu, .rademacher | .cpu, .normal | .cpu, .randomMask | .cpu, .identity => true
  | .cuda, _ => true
  | _, _ => false

/-- The checks of `random_project` (projection.py:1322-1361): parsed type and multiplier, or `ValueError`. -/
def checkType (pyInt : List Char → Option ℤ) (dev : Dev) (s : List Char) : Except Err (Kind × ℤ) := do
  let r ← parseGrass pyInt s
  if dev = .other then .error .valueError
  else match kindOf r.1 with
    | none => .error .valueError
    | some k => if validOn dev k then pure (k, r.2) else .error .valueError

/-- The `proj_type` argument: a string, or anything else (e.g. a `ProjectionType` member). -/
inductive PTArg
  | str (s : List Char)
  | nonStr

/-- As `checkType`, for an arbitrary argument: in the `else` branch (projection.py:1329-1330) the local `proj_type` is never assigned,
so its first use (line 1353) raises `UnboundLocalError`; the device check (1348-1351) comes before. -/
def checkArg (pyInt : List Char → Option ℤ) (dev : Dev) : PTArg → Except Err (Kind × ℤ)
  | .str s => checkType pyInt dev s
  | .nonStr => if dev = .other then .error .valueError else .error .unboundLocalError

end Verif.Projection
