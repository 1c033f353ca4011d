import Mathlib.Data.Int.Log
import Mathlib.Algebra.Order.Archimedean.Real.Basic
import Mathlib.Algebra.Order.Round
import Mathlib.Algebra.BigOperators.Group.List.Basic

/-!
# TracIn scores in floating point (`dattri/algorithm/tracin.py:104-106, 240-256`)

A matrix product may add up the products of the entries in any order and bracketing; which one is chosen depends on the
shapes of the two batches, on the device and on the number of threads. Products may be rounded or, with fused
multiply-add, enter the sum unrounded. Simplified: the rows of the gradients are given; overflow does not occur; nothing is
claimed about the rounding inside the gradient computation itself.
-/

namespace Verif.TracInRound

/-- One way of evaluating an inner product: the products and the brackets of the additions. -/
inductive Order where
  | prod (i : ℕ)
  | fused (i : ℕ)
  | add (l r : Order)

namespace Order

/-- The indices of the products that are added up. -/
def indices : Order → List ℕ
  | prod i => [i]
  | fused i => [i]
  | add l r => l.indices ++ r.indices

/-- The largest number of roundings between a product and the result. -/
def depth : Order → ℕ
  | prod _ => 1
  | fused _ => 0
  | add l r => max l.depth r.depth + 1

/-- One entry of `train_batch_grad @ test_batch_grad.T` (tracin.py:244-245, 253) when every operation is rounded by
`fl`. -/
def eval (fl : ℝ → ℝ) (x y : ℕ → ℝ) : Order → ℝ
  | prod i => fl (x i * y i)
  | fused i => x i * y i
  | add l r => fl (eval fl x y l + eval fl x y r)

end Order

/-- What one checkpoint contributes to one entry of the scores: the two gradient rows, the weight of the checkpoint and
the order in which the matrix product of this batch pair adds up. -/
structure Ckpt where
  train : ℕ → ℝ
  test : ℕ → ℝ
  weight : ℝ
  order : Order

/-- The entry of `tda_output` after the checkpoints: `tda_output += product * ckpt_weight` starting at zero
(tracin.py:104-106, 242-256). -/
def score (fl : ℝ → ℝ) (cs : List Ckpt) : ℝ :=
  cs.foldl (fun s c => fl (s + fl (c.order.eval fl c.train c.test * c.weight))) 0

/-- Rounding to the nearest integer, ties to even. -/
noncomputable def roundEven (t : ℝ) : ℤ :=
  if Int.fract t < 1 / 2 then ⌊t⌋
  else if 1 / 2 < Int.fract t then ⌊t⌋ + 1
  else if ⌊t⌋ % 2 = 0 then ⌊t⌋ else ⌊t⌋ + 1

/-- The exponent of the last place of a number in the float32 format: 23 places after the leading one, and not below
`-149` (the format of `tda_output` and of the gradients by default, tracin.py:104-106). -/
noncomputable def lastPlace (x : ℝ) : ℤ := max (Int.log 2 |x|) (-126) - 23

/-- Rounding to float32 (to nearest, ties to even, with subnormal numbers). Simplified: no overflow. -/
noncomputable def float32 (x : ℝ) : ℝ := roundEven (x / 2 ^ lastPlace x) * 2 ^ lastPlace x

end Verif.TracInRound
