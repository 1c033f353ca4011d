import Mathlib.Data.List.Dedup
import Mathlib.Data.Int.Order.Basic
import Verif.Base.Tensor

/-!
# Model of `flip_label` (`dattri/benchmark/utils.py`)

Random outcomes are parameters: `noise` is the result of `rng.choice(n, size, replace=False)`, `draw d` the position picked by the `d`-th later
`rng.choice` (reduced modulo the length of the list).
-/

namespace Verif.Flip

/-- An element of the Python set of labels: a number, or a 0-d tensor object, which is hashed by identity and equals no label number during lookup. -/
inductive Elem
  | num (v : ℤ)
  | obj (v : ℤ)
  deriving DecidableEq

/-- `int(e)`. -/
def Elem.val : Elem → ℤ
  | .num v => v
  | .obj v => v

/-- The label space argument. -/
inductive Space
  | default
  | values (l : List ℤ)
  | tensor (l : List ℤ)

/-- `label_space = set(...)` (utils.py:57-60). Iterating a tensor yields 0-d tensor objects, all distinct in a set. -/
def Space.toSet (labels : List ℤ) : Space → List Elem
  | .default => labels.dedup.map .num
  | .values l => l.dedup.map .num
  | .tensor l => l.map .obj

/-- `_random_flip` (utils.py:16-32): the new set of labels and the drawn label. `rng.choice` of an empty list raises `ValueError`. -/
def randomFlip (space : List Elem) (label : ℤ) (draw : ℕ) : Except Err (List Elem × ℤ) :=
  let without := space.filter (· ≠ .num label)
  if h : without.length = 0 then .error .valueError
  else .ok (without ++ [.num label], (without[draw % without.length]'(Nat.mod_lt _ (Nat.pos_of_ne_zero h))).val)

/-- Flipping the labels of a list one after the other. -/
def flipAll (draw : ℕ → ℕ) : ℕ → List Elem → List ℤ → Except Err (List ℤ)
  | _, _, [] => .ok []
  | d, space, x :: xs => do
    let (space', y) ← randomFlip space x (draw d)
    let ys ← flipAll draw (d + 1) space' xs
    .ok (y :: ys)

/-- `np.vectorize(f)(xs)` without `otypes`: raises on size-0 input and calls `f` once more on the first element to find the type. -/
def vectorized (draw : ℕ → ℕ) (space : List Elem) : List ℤ → Except Err (List ℤ)
  | [] => .error .valueError
  | x :: xs => do
    let (space', _) ← randomFlip space x (draw 0)
    flipAll draw 1 space' (x :: xs)

/-- `flipped_label[noise_index] = noisy` on the deep copy. -/
def scatter (labels : List ℤ) (upd : List (ℕ × ℤ)) : List ℤ := upd.foldl (fun l u => l.set u.1 u.2) labels

/-- `flip_label` (utils.py:35-80). `size = int(p * n)`; `rng.choice` raises `ValueError` when it is negative or exceeds `n`. A numpy array
has no method `long` (`AttributeError`). Integer labels. -/
def flipLabel (isTensor : Bool) (labels : List ℤ) (space : Space) (size : ℤ) (noise : List ℕ) (draw : ℕ → ℕ) : Except Err (List ℤ × List ℕ) :=
  if size < 0 ∨ (labels.length : ℤ) < size then .error .valueError
  else do
    let noisy ← vectorized draw (space.toSet labels) (noise.map fun i => labels.getD i 0)
    if isTensor then .ok (scatter labels (noise.zip noisy), noise) else .error .attributeError

end Verif.Flip
