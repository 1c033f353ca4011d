import Verif.Base.Tensor

/-!
# Model of the data preparation of WikiText-2 (`dattri/benchmark/datasets/wikitext2/data.py`) and CIFAR-2 (`dattri/benchmark/datasets/cifar/data.py`)
-/

namespace Verif.Texts

/-- A text after the tokenizer: token ids and attention mask, of equal length. -/
structure Tokens where
  ids : List ℕ
  mask : List ℕ
  deriving DecidableEq

/-- A row of the resulting data set. -/
structure Row where
  ids : List ℕ
  mask : List ℕ
  labels : List ℕ
  deriving DecidableEq

/-- `range(0, total, block_size)` for the non-negative `total` below (empty for negative steps). -/
def starts (total bs : ℤ) : List ℕ := if 0 < bs then (List.range (total / bs).toNat).map fun i : ℕ => i * bs.toNat else []

/-- `t[i : i + block_size]` for `i ≥ 0`. -/
def slice (t : List ℕ) (i : ℕ) (bs : ℤ) : List ℕ := (t.drop i).take bs.toNat

/-- `group_texts` (data.py:72-83) on a batch of texts. Simplified: the columns are those of the GPT-2 tokenizer, `input_ids` first. -/
def groupTexts (bs : ℤ) (texts : List Tokens) : Except Err (List Row) :=
  let ids := texts.flatMap (·.ids)
  let mask := texts.flatMap (·.mask)
  if bs = 0 then .error .zeroDivisionError
  else
    let total := Int.fdiv ids.length bs * bs
    .ok ((starts total bs).map fun i => ⟨slice ids i bs, slice mask i bs, slice ids i bs⟩)

/-- The part of `create_wikitext2_dataset` after tokenization (data.py:63-96) for one split: `Dataset.map` with `batched=True` calls `group_texts` on
1000 texts at a time and concatenates. `logging.Logger.warning(msg)` calls the method without an instance, which raises `TypeError`. -/
def wikitext (bs maxLen : ℤ) (texts : List Tokens) : Except Err (List Row) :=
  if bs > maxLen then .error .typeError
  else
    let bs := min bs maxLen
    (batches 1000 texts).mapM (groupTexts bs) >>= fun rows => .ok rows.flatten

/-- The loop of `get_cifar2_indices_and_adjust_labels` (data.py:29-35) from position `i` on: indices and new targets. -/
def adjustFrom : ℕ → List ℤ → List ℕ × List ℤ
  | _, [] => ([], [])
  | i, t :: ts =>
    let r := adjustFrom (i + 1) ts
    if t = 3 then (i :: r.1, 0 :: r.2)
    else if t = 5 then (i :: r.1, 1 :: r.2)
    else (r.1, t :: r.2)

/-- `get_cifar2_indices_and_adjust_labels` (cifar/data.py:15-36): the indices, and the targets of the data set afterwards. -/
def adjust (targets : List ℤ) : List ℕ × List ℤ := adjustFrom 0 targets

/-- The CIFAR-2 subset (cifar/data.py:74-87): the positions in the underlying data set with its adjusted targets, and the `targets` attribute. -/
structure Cifar2 where
  indices : List ℕ
  baseTargets : List ℤ
  targets : List ℤ

/-- Building one split. -/
def cifar2 (targets : List ℤ) : Cifar2 :=
  let r := adjust targets
  ⟨r.1, r.2, r.1.map fun i => r.2.getD i 0⟩

/-- `train_dataset[k]`: the position of the image and its label, `none` past the end. -/
def Cifar2.item (c : Cifar2) (k : ℕ) : Option (ℕ × ℤ) := do
  let i ← c.indices[k]?
  let t ← c.baseTargets[i]?
  some (i, t)

end Verif.Texts
