import Mathlib.Data.Real.Basic
import Mathlib.Data.Matrix.Mul
import Verif.Base.Blocks
import Verif.Hessian.LissaModel

/-!
# Model of `attribute` with the LiSSA transformation, with its random draws

`IFAttributorLiSSA` draws random batches in every call of `transform_test_rep` (influence_function.py:538-589), and
`BaseInnerProductAttributor.attribute` calls it inside the loop over the training batches (base.py:341-450). The draws are an explicit input: `draw c`
is everything drawn in the `c`-th call of `transform_test_rep` of one call of `attribute`.

Simplifications: exact real arithmetic; supported batches; loaders without shuffling, given by their number of samples and batch size; gradients
are given as vectors (`g k i` of the training loss, `t k j` of the target, at checkpoint `k`).
-/

namespace Verif.LissaAttr

open Matrix

variable {Ω : Type} {p : ℕ}

/-- The state of the loops: how often `transform_test_rep` has been called, and `tda_output`. -/
structure St where
  calls : ℕ
  out : ℕ → ℕ → ℝ

/-- The arguments: `K` checkpoints; `n` training samples in batches of `bs`; `m` test samples in batches of `bs'`; gradients; the
transformation `est k ω r v` of the vector `v` in row `r` of a batch with the draws `ω` at checkpoint `k`; and, if a normalisation is chosen, the
denominator as a function of checkpoint, training sample and its transformed gradient (`_compute_denom`, influence_function.py:608-648). -/
structure Args (Ω : Type) (p : ℕ) where
  K : ℕ
  n : ℕ
  bs : ℕ
  m : ℕ
  bs' : ℕ
  g : ℕ → ℕ → Fin p → ℝ
  t : ℕ → ℕ → Fin p → ℝ
  est : ℕ → Ω → ℕ → (Fin p → ℝ) → Fin p → ℝ
  relatif : Option (ℕ → ℕ → (Fin p → ℝ) → ℝ)

/-- Body of the loop over the test batches (base.py:395-448): one call of `transform_test_rep`, one block of scores. -/
noncomputable def testStep (a : Args Ω p) (draw : ℕ → Ω) (k tb : ℕ) (den : ℕ → ℝ) (s : St) (sb : ℕ) : St where
  calls := s.calls + 1
  out i j :=
    if (tb * a.bs ≤ i ∧ i < min ((tb + 1) * a.bs) a.n) ∧ (sb * a.bs' ≤ j ∧ j < min ((sb + 1) * a.bs') a.m) then
      s.out i j + (a.g k i ⬝ᵥ a.est k (draw s.calls) (j - sb * a.bs') (a.t k j)) / den i
    else s.out i j

/-- Body of the loop over the training batches (base.py:343-448): the denominators, with a call of `transform_test_rep` of their own, then the test
batches. Without normalisation nothing is divided (here: by 1). -/
noncomputable def trainStep (a : Args Ω p) (draw : ℕ → Ω) (k : ℕ) (s : St) (tb : ℕ) : St :=
  match a.relatif with
  | none => (List.range (numBatches a.bs' a.m)).foldl (testStep a draw k tb fun _ => 1) s
  | some nrm =>
    (List.range (numBatches a.bs' a.m)).foldl
      (testStep a draw k tb fun i => nrm k i (a.est k (draw s.calls) (i - tb * a.bs) (a.g k i))) { s with calls := s.calls + 1 }

/-- Body of the loop over the checkpoints (base.py:341-450). -/
noncomputable def ckptStep (a : Args Ω p) (draw : ℕ → Ω) (s : St) (k : ℕ) : St :=
  let s := (List.range (numBatches a.bs a.n)).foldl (trainStep a draw k) { s with out := fun i j => s.out i j * k }
  { s with out := fun i j => s.out i j / (k + 1) }

/-- `IFAttributorLiSSA.attribute` (base.py:334-452). -/
noncomputable def attributeLissa (a : Args Ω p) (draw : ℕ → Ω) : St :=
  (List.range a.K).foldl (ckptStep a draw) ⟨0, fun _ _ => 0⟩

/-- The transformation of a row by `transform_test_rep` (influence_function.py:560-589) for draws `ω fb r rep step` (batch of the cached loader, row,
repeat, step): the sum over the batches of the cached loader of the LiSSA estimates (hessian.py:900-921); `vmap` with `randomness="different"` draws
separately for every row. `num_repeat` and `scaling` are not 0 (otherwise see `Verif.Hessian.ihvpLissa`). -/
noncomputable def estimate (B : ℕ) (hv : ℕ → ℕ → List ℕ → Matrix (Fin p) (Fin p) ℝ) (batchSize numRepeat depth : ℕ) (damping scaling : ℝ)
    (k : ℕ) (ω : ℕ → ℕ → ℕ → ℕ → List ℕ) (r : ℕ) (v : Fin p → ℝ) : Fin p → ℝ :=
  ((List.range B).map fun fb : ℕ => ((numRepeat : ℝ)⁻¹) • ((List.range numRepeat).map (fun rep : ℕ =>
    (1 / scaling) • Verif.Hessian.lissaRec (hv k fb) (ω fb r rep) batchSize damping scaling v depth)).sum).sum

end Verif.LissaAttr
