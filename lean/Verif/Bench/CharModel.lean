import Verif.Base.Tensor
import Verif.Bench.Windows
import Mathlib.Data.Int.Log
import Mathlib.Data.List.Dedup
import Mathlib.Algebra.Order.Round
import Mathlib.Data.Rat.Floor

/-!
# Preparation of the character data sets (`shakespeare_char/prepare.py`, `tinystories/prepare.py`)

The two scripts are the same apart from where the text comes from.  Characters are the elements of a linear order (their code points).  Left out: download and
reading of the text, printing.  Files hold lists of numbers; `meta.pkl` is not modelled apart from the two dictionaries in it.
-/

namespace Verif.Chars

variable {α : Type} [LinearOrder α]

/-- `sorted(list(set(data)))` (prepare.py:24). -/
def chars (data : List α) : List α := data.dedup.mergeSort (· ≤ ·)

/-- `stoi[c]` (prepare.py:30): the dictionary made from `enumerate(chars)`. -/
def stoi (data : List α) (c : α) : Except Err ℕ :=
  match (chars data).zipIdx.lookup c with
  | some i => .ok i
  | none => .error .keyError

/-- `encode` (prepare.py:32-33). -/
def encode (data s : List α) : Except Err (List ℕ) := s.mapM (stoi data)

/-- `itos[i]` (prepare.py:31); the keys of the dictionary are the positions in `chars`. -/
def itos (data : List α) (i : ℕ) : Except Err α :=
  match (chars data)[i]? with
  | some c => .ok c
  | none => .error .keyError

/-- `decode` (prepare.py:34-35); the characters of the joined string. -/
def decode (data : List α) (l : List ℕ) : Except Err (List α) := l.mapM (itos data)

/-- The double nearest to a positive number that is neither too large nor too small for the format: a multiple of the unit in the last place, where `r` rounds to a
nearest integer (ties as `r` likes). -/
def toDouble (r : ℚ → ℤ) (x : ℚ) : ℚ := r (x / 2 ^ (Int.log 2 x - 52)) * 2 ^ (Int.log 2 x - 52)

/-- The double written `0.9`. -/
def nineTenths : ℚ := 8106479329266893 / 2 ^ 53

/-- `int(n*0.9)` (prepare.py:39-40) in double precision. -/
def cut (r : ℚ → ℤ) (n : ℕ) : ℕ := if n = 0 then 0 else ⌊toDouble r (n * nineTenths)⌋.toNat

/-- `np.array(ids, dtype=np.uint16)` (prepare.py:49-50). `none`: a number does not fit (an error in numpy 2; numpy 1 warns and wraps around, which is not
modelled). -/
def toUInt16 (ids : List ℕ) : Option (List ℕ) := if ∀ i ∈ ids, i < 65536 then some ids else none

/-- `train.bin` and `val.bin` (prepare.py:38-52). -/
def prepare (r : ℚ → ℤ) (data : List α) : Except Err (Option (List ℕ × List ℕ)) := do
  let n := data.length
  let trainIds ← encode data (data.take (cut r n))
  let valIds ← encode data (data.drop (cut r n))
  pure ((toUInt16 trainIds).bind fun t => (toUInt16 valIds).map fun v => (t, v))

/-- `np.memmap` of a file: an empty one cannot be mapped. -/
def memmap (file : List ℕ) : Except Err (List ℕ) := if file = [] then .error .valueError else .ok file

/-- `create_shakespeare_dataset` (shakespeare_char/data.py:60-68): the data behind the training and the validation set. -/
def openBoth (train val : List ℕ) : Except Err (List ℕ × List ℕ) := do
  let v ← memmap val
  let t ← memmap train
  pure (t, v)

end Verif.Chars
