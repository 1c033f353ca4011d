import Verif.Base.Tensor

/-!
# Sequence data sets: model

The Maestro windows of `dattri/benchmark/models/MusicTransformer/dataset/e_piano.py` and the character blocks
of `dattri/benchmark/datasets/shakespeare_char/data.py`.  Tokens are natural numbers.
-/

namespace Verif.Windows

/-- `TOKEN_END` (MusicTransformer/utilities/constants.py:26, 388). -/
def END : ℕ := 388

/-- `TOKEN_PAD` (MusicTransformer/utilities/constants.py:27, 389). -/
def PAD : ℕ := 389

/-- `process_midi` (e_piano.py:124-170): input and target.  `draw` is the result of
`random.randint(0, raw_len - full_seq)`, which lies in that range; `offset` is 0 where the code has `None`
(both are false in line 151).  Negative offsets, which the data set never passes, are left out. -/
def processMidi (raw : List ℕ) (maxSeq : ℕ) (randomSeq : Bool) (offset draw : ℕ) : List ℕ × List ℕ :=
  if raw.length = 0 then (List.replicate maxSeq PAD, List.replicate maxSeq PAD)
  else if raw.length < maxSeq + 1 then
    (raw ++ List.replicate (maxSeq - raw.length) PAD,
      raw.drop 1 ++ [END] ++ List.replicate (maxSeq - raw.length) PAD)
  else
    let start := if offset ≠ 0 then offset else if randomSeq then draw else 0
    let data := (raw.drop start).take (maxSeq + 1)
    (data.take maxSeq, (data.take (maxSeq + 1)).drop 1)

/-- `range(0, n, step)` for `step > 0`: the multiples of `step` below `n`, in order. -/
def pyRange (n step : ℕ) : List ℕ := (List.range n).filter fun k => k % step = 0

/-- `math.ceil(n / step)` (e_piano.py:67); the division is taken as exact. -/
def ceilDiv (n step : ℕ) : ℕ := (n + step - 1) / step

/-- The table of windows of the full version (e_piano.py:56-72): file and offset of every item.
`stride` is `sliding_windows_size`.  A stride of 0 is a division by zero as soon as there is a file; the
assertion of line 72 is kept.  `max(..., 0)` and the empty range for short pieces are the truncated
subtraction. -/
def windowTable (files : List (List ℕ)) (maxSeq stride : ℕ) : Except Err (List (ℕ × ℕ)) :=
  if stride = 0 ∧ files ≠ [] then .error .zeroDivisionError
  else
    let table := (List.range files.length).flatMap fun f =>
      (pyRange ((files.getD f []).length - maxSeq) stride).map fun o => (f, o)
    let total := (files.map fun raw => ceilDiv (raw.length - maxSeq) stride).sum
    if total = table.length then .ok table else .error .assertionError

/-- `EPianoDataset.__getitem__` in the full version (e_piano.py:103-105, 111-120). -/
def fullItem (files : List (List ℕ)) (table : List (ℕ × ℕ)) (maxSeq : ℕ) (randomSeq : Bool) (idx draw : ℕ) :
    Except Err (List ℕ × List ℕ) :=
  match table[idx]? with
  | none => .error .keyError
  | some (f, o) => .ok (processMidi (files.getD f []) maxSeq randomSeq o draw)

/-- `CustomDataset.__len__` (shakespeare_char/data.py:22-23). -/
def blockCount (data : List ℕ) (block : ℕ) : Except Err ℕ :=
  if block = 0 then .error .zeroDivisionError else .ok (data.length / block)

/-- `CustomDataset.__getitem__` (shakespeare_char/data.py:25-31), for indices that are not negative. -/
def blockItem (data : List ℕ) (block idx : ℕ) : List ℕ × List ℕ :=
  let x := (data.drop (idx * block)).take block
  let y := (data.drop (idx * block + 1)).take block
  (x, if y.length < block then y ++ List.replicate (block - y.length) 0 else y)

/-- `CustomDataset.get_subset` (shakespeare_char/data.py:33-37): `torch.stack` wants at least one row and
equal lengths. -/
def blockSubset (data : List ℕ) (block : ℕ) (indices : List ℕ) : Except Err (List (List ℕ) × List (List ℕ)) :=
  let items := indices.map (blockItem data block)
  match items with
  | [] => .error .runtimeError
  | first :: _ =>
    if ∀ it ∈ items, it.1.length = first.1.length then .ok (items.map Prod.fst, items.map Prod.snd)
    else .error .runtimeError

end Verif.Windows
