import Verif.RPS.CheckModel
import Mathlib.Algebra.Order.BigOperators.Group.Finset
import Mathlib.Algebra.BigOperators.Ring.Finset
import Mathlib.Algebra.BigOperators.Field
import Mathlib.Tactic.Ring
import Mathlib.Tactic.Linarith
import Mathlib.Tactic.FieldSimp
import Mathlib.LinearAlgebra.Matrix.Notation

/-!
# C199: what the sanity check of RPS can tell
-/

namespace Verif.RPSCheck

open Matrix Verif.Metric

variable {n d c : ℕ}

/-! ### Helper lemmas -/

/-- The deviation from the mean. -/
noncomputable def dev (x : Fin n → ℝ) (i : Fin n) : ℝ := x i - (∑ j, x j) / n

theorem cross_dev (x y : Fin n → ℝ) : cross x y = ∑ i, dev x i * dev y i := by
  simp [cross, dev, mean]

theorem pearson_one_iff (x y : Fin n → ℝ) (hn : 0 < n) :
    pearson x y = some 1 ↔ (∃ i j, y i ≠ y j) ∧ ∃ a b : ℝ, 0 < a ∧ ∀ i, x i = a * y i + b := by
  have hn' : (n : ℝ) ≠ 0 := by exact_mod_cast hn.ne'
  have hconst : ∀ z : Fin n → ℝ, cross z z = 0 ↔ ∀ i, dev z i = 0 := by
    intro z
    rw [cross_dev, Finset.sum_eq_zero_iff_of_nonneg (fun i _ => mul_self_nonneg _)]
    simp
  have hnn : ∀ z : Fin n → ℝ, 0 ≤ cross z z := by
    intro z
    rw [cross_dev]
    exact Finset.sum_nonneg fun i _ => mul_self_nonneg _
  have hvar : ∀ z : Fin n → ℝ, (∀ i, dev z i = 0) ↔ ∀ i j, z i = z j := by
    intro z
    constructor
    · intro h i j
      have h1 := h i
      have h2 := h j
      simp only [dev] at h1 h2
      linarith
    · intro h i
      have : ∑ j, z j = n * z i := by
        rw [Finset.sum_congr rfl (fun j _ => h j i)]
        simp
      simp only [dev, this]
      field_simp
      ring
  constructor
  · intro h
    unfold pearson at h
    split at h
    · cases h
    · rename_i h0
      push Not at h0
      have hx : 0 < cross x x := lt_of_le_of_ne (hnn x) h0.1.symm
      have hy : 0 < cross y y := lt_of_le_of_ne (hnn y) h0.2.symm
      have sx := Real.sqrt_pos.2 hx
      have sy := Real.sqrt_pos.2 hy
      have hxy : cross x y = Real.sqrt (cross x x) * Real.sqrt (cross y y) := by
        have := Option.some.inj h
        rwa [div_eq_one_iff_eq (mul_pos sx sy).ne'] at this
      refine ⟨?_, Real.sqrt (cross x x) / Real.sqrt (cross y y), (∑ j, x j) / n - Real.sqrt (cross x x) / Real.sqrt (cross y y) * ((∑ j, y j) / n), div_pos sx sy, ?_⟩
      · by_contra hc
        push Not at hc
        exact h0.2 ((hconst y).2 ((hvar y).2 hc))
      · have key : ∑ i, (Real.sqrt (cross y y) * dev x i - Real.sqrt (cross x x) * dev y i) ^ 2 = 0 := by
          have e : ∀ i, (Real.sqrt (cross y y) * dev x i - Real.sqrt (cross x x) * dev y i) ^ 2 =
              Real.sqrt (cross y y) ^ 2 * (dev x i * dev x i) - 2 * (Real.sqrt (cross x x) * Real.sqrt (cross y y)) * (dev x i * dev y i) +
                Real.sqrt (cross x x) ^ 2 * (dev y i * dev y i) := fun i => by ring
          simp only [e]
          rw [Finset.sum_add_distrib, Finset.sum_sub_distrib, ← Finset.mul_sum, ← Finset.mul_sum, ← Finset.mul_sum, ← cross_dev, ← cross_dev, ← cross_dev, hxy]
          have q1 := Real.sq_sqrt hx.le
          have q2 := Real.sq_sqrt hy.le
          generalize Real.sqrt (cross x x) = s at *
          generalize Real.sqrt (cross y y) = t at *
          rw [← q1, ← q2]
          ring
        intro i
        have h1 := (Finset.sum_eq_zero_iff_of_nonneg (fun i _ => sq_nonneg _)).1 key i (Finset.mem_univ i)
        have h2 : Real.sqrt (cross y y) * dev x i - Real.sqrt (cross x x) * dev y i = 0 := by simpa using h1
        have h3 : dev x i = Real.sqrt (cross x x) / Real.sqrt (cross y y) * dev y i := by
          rw [div_mul_eq_mul_div, eq_div_iff sy.ne']
          linarith
        simp only [dev] at h3
        linarith
  · rintro ⟨⟨i, j, hij⟩, a, b, ha, hab⟩
    have hy : cross y y ≠ 0 := fun h => hij ((hvar y).1 ((hconst y).1 h) i j)
    have hdev : ∀ i, dev x i = a * dev y i := by
      intro i
      have : ∑ j, x j = a * (∑ j, y j) + n * b := by
        rw [Finset.sum_congr rfl (fun j _ => hab j), Finset.sum_add_distrib, ← Finset.mul_sum]
        simp
      simp only [dev, this, hab i]
      field_simp
      ring
    have h1 : cross x x = a ^ 2 * cross y y := by
      rw [cross_dev, cross_dev, Finset.mul_sum]
      exact Finset.sum_congr rfl fun i _ => by rw [hdev i]; ring
    have h2 : cross x y = a * cross y y := by
      rw [cross_dev, cross_dev, Finset.mul_sum]
      exact Finset.sum_congr rfl fun i _ => by rw [hdev i]; ring
    unfold pearson
    rw [if_neg (by rw [h1]; simp [hy, ha.ne'])]
    rw [h1, h2, Real.sqrt_mul (sq_nonneg a), Real.sqrt_sq ha.le, mul_assoc, Real.mul_self_sqrt (hnn y), div_self (mul_ne_zero ha.ne' hy)]

theorem prediction_apply (w : Matrix (Fin n) (Fin c) ℝ) (x : Matrix (Fin n) (Fin d) ℝ) (i : Fin n) (k : Fin c) :
    prediction w x i k = ∑ j, (∑ l, x i l * x j l) * w j k := by simp [prediction, Matrix.mul_apply]

/-! ### Properties -/

/-- **C199** (differences). The printed difference of a class is never negative, and is 0 exactly if the weights reproduce the output of that class on all samples. -/
theorem C199_difference (w : Matrix (Fin n) (Fin c) ℝ) (x : Matrix (Fin n) (Fin d) ℝ) (y : Matrix (Fin n) (Fin c) ℝ) (hn : 2 ≤ n) :
    ∃ r, corrCheck w x y = .ok r ∧ ∀ k, 0 ≤ r.1 k ∧ (r.1 k = 0 ↔ ∀ i, y i k = ∑ j, (∑ l, x i l * x j l) * w j k) := by
  refine ⟨_, by rw [corrCheck, if_neg (by omega)], fun k => ⟨div_nonneg (Finset.sum_nonneg fun _ _ => abs_nonneg _) (Nat.cast_nonneg _), ?_⟩⟩
  have hn' : (n : ℝ) ≠ 0 := by exact_mod_cast (show n ≠ 0 by omega)
  have e : ∀ i, prediction w x i k = ∑ j, (∑ l, x i l * x j l) * w j k := fun i => by simp [prediction, Matrix.mul_apply]
  simp only [div_eq_zero_iff, hn', or_false]
  rw [Finset.sum_eq_zero_iff_of_nonneg (fun i _ => abs_nonneg _)]
  simp [e, sub_eq_zero]

/-- **C199** (correlations). The printed correlation of a class is 1 exactly if the prediction is not constant and the output is a positive multiple of it plus a constant: it
cannot tell a wrong scale or offset. It is not-a-number exactly if prediction or output is constant. -/
theorem C199_correlation (w : Matrix (Fin n) (Fin c) ℝ) (x : Matrix (Fin n) (Fin d) ℝ) (y : Matrix (Fin n) (Fin c) ℝ) (hn : 2 ≤ n) :
    ∃ r, corrCheck w x y = .ok r ∧ ∀ k,
      (r.2 k = some 1 ↔ (∃ i j, prediction w x i k ≠ prediction w x j k) ∧ ∃ a b : ℝ, 0 < a ∧ ∀ i, y i k = a * prediction w x i k + b) ∧
      (r.2 k = none ↔ (∀ i j, y i k = y j k) ∨ ∀ i j, prediction w x i k = prediction w x j k) := by
  refine ⟨_, by rw [corrCheck, if_neg (by omega)], fun k => ⟨pearson_one_iff _ _ (Nat.lt_of_lt_of_le Nat.zero_lt_two hn), ?_⟩⟩
  have hn' : (n : ℝ) ≠ 0 := by exact_mod_cast (show n ≠ 0 by omega)
  have hvar : ∀ z : Fin n → ℝ, cross z z = 0 ↔ ∀ i j, z i = z j := by
    intro z
    rw [cross_dev, Finset.sum_eq_zero_iff_of_nonneg (fun i _ => mul_self_nonneg _)]
    simp only [Finset.mem_univ, forall_const, mul_self_eq_zero]
    constructor
    · intro h i j
      have h1 := h i
      have h2 := h j
      simp only [dev] at h1 h2
      linarith
    · intro h i
      have : ∑ j, z j = n * z i := by
        rw [Finset.sum_congr rfl (fun j _ => h j i)]
        simp
      simp only [dev, this]
      field_simp
      ring
  unfold pearson
  simp only [ite_eq_left_iff, reduceCtorEq, imp_false, not_not, hvar]

/-- **C199** (exact weights). If the last layer is the weighted sum of the features, `theta = wᵀ x`, the differences for its outputs `x thetaᵀ` are 0 and every correlation
is 1 or not-a-number. -/
theorem C199_exact (w : Matrix (Fin n) (Fin c) ℝ) (x : Matrix (Fin n) (Fin d) ℝ) (θ : Matrix (Fin c) (Fin d) ℝ) (hθ : θ = wᵀ * x) (hn : 2 ≤ n) :
    ∃ r, corrCheck w x (x * θᵀ) = .ok r ∧ ∀ k, r.1 k = 0 ∧ (r.2 k = some 1 ∨ r.2 k = none) := by
  have hy : x * θᵀ = prediction w x := by
    rw [hθ, Matrix.transpose_mul, Matrix.transpose_transpose, prediction, Matrix.mul_assoc]
  obtain ⟨r, h1, h2⟩ := C199_correlation w x (x * θᵀ) hn
  obtain ⟨r', h1', h2'⟩ := C199_difference w x (x * θᵀ) hn
  rw [h1] at h1'
  cases h1'
  refine ⟨r, h1, fun k => ⟨(h2' k).2.2 fun i => by rw [hy]; simp [prediction, Matrix.mul_apply], ?_⟩⟩
  by_cases hc : ∀ i j, prediction w x i k = prediction w x j k
  · exact Or.inr ((h2 k).2.2 (Or.inr hc))
  · push Not at hc
    exact Or.inl ((h2 k).1.2 ⟨hc, 1, 0, one_pos, fun i => by rw [hy]; ring⟩)

/-- **C199** (errors). With fewer than two samples the check is a `ValueError` (unless there is no class). -/
theorem C199_errors (w : Matrix (Fin n) (Fin c) ℝ) (x : Matrix (Fin n) (Fin d) ℝ) (y : Matrix (Fin n) (Fin c) ℝ) :
    corrCheck w x y = .error .valueError ↔ 0 < c ∧ n < 2 := by
  rw [Nat.pos_iff_ne_zero]
  by_cases h : c ≠ 0 ∧ n < 2
  · rw [corrCheck, if_pos h]
    exact ⟨fun _ => h, fun _ => rfl⟩
  · rw [corrCheck, if_neg h]
    exact ⟨fun h' => by simp at h', fun h' => absurd h' h⟩

/-- Weights of half the right size: the correlation is still 1, the difference is not 0. -/
example : ∃ r, corrCheck (n := 2) (d := 1) (c := 1) !![1; 0] !![1; 2] !![2; 4] = .ok r ∧ r.2 0 = some 1 ∧ r.1 0 ≠ 0 := by
  obtain ⟨r, h1, h2⟩ := C199_correlation (n := 2) (d := 1) (c := 1) !![1; 0] !![1; 2] !![2; 4] (le_refl _)
  obtain ⟨r', h1', h2'⟩ := C199_difference (n := 2) (d := 1) (c := 1) !![1; 0] !![1; 2] !![2; 4] (le_refl _)
  rw [h1] at h1'
  cases h1'
  refine ⟨r, h1, (h2 0).1.2 ⟨⟨0, 1, by simp [prediction_apply]⟩, 2, 0, by norm_num, fun i => by fin_cases i <;> norm_num [prediction_apply]⟩, ?_⟩
  rw [Ne, (h2' 0).2]
  intro h
  have := h 0
  norm_num at this

end Verif.RPSCheck
