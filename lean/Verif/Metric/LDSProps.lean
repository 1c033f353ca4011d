import Mathlib.Tactic.FieldSimp
import Mathlib.Tactic.Ring
import Mathlib.Tactic.NormNum
import Mathlib.Tactic.Linarith
import Mathlib.Tactic.Positivity
import Mathlib.Tactic.FinCases
import Mathlib.Algebra.Order.BigOperators.Ring.Finset
import Mathlib.Algebra.Order.Chebyshev
import Verif.Metric.LDSModel

/-!
# C40, C41: invariances and range of the linear datamodeling score
-/

namespace Verif.Metric

open Finset

variable {m : ℕ}

lemma avgRank_congr {x y : Fin m → ℝ} (h : ∀ i j, x i < x j ↔ y i < y j) : avgRank x = avgRank y := by
  have he : ∀ i j, x i = x j ↔ y i = y j := by
    intro i j
    constructor
    · intro e
      apply le_antisymm <;> apply not_lt.1 <;> rw [← h] <;> simp [e]
    · intro e
      apply le_antisymm <;> apply not_lt.1 <;> rw [h] <;> simp [e]
  funext i
  unfold avgRank
  simp only [h, he]

lemma avgRank_anti {x y : Fin m → ℝ} (h : ∀ i j, x i < x j ↔ y j < y i) (i : Fin m) : avgRank y i = (m + 1 : ℝ) - avgRank x i := by
  have he : ∀ i j, x i = x j ↔ y i = y j := by
    intro i j
    constructor
    · intro e
      apply le_antisymm <;> apply not_lt.1 <;> rw [← h] <;> simp [e]
    · intro e
      apply le_antisymm <;> apply not_lt.1 <;> rw [h] <;> simp [e]
  have hcount : (#{j | x j < x i} : ℝ) + #{j | x j = x i} + #{j | x i < x j} = m := by
    have h1 : #{j | x j < x i} + #{j | x j = x i} + #{j | x i < x j} = m := by
      have hd1 : Disjoint ({j | x j < x i} : Finset (Fin m)) ({j | x j = x i} : Finset (Fin m)) := by
        rw [disjoint_filter]; intro j _ h1 h2; exact absurd h2 h1.ne
      have hd2 : Disjoint (({j | x j < x i} : Finset (Fin m)) ∪ ({j | x j = x i} : Finset (Fin m))) ({j | x i < x j} : Finset (Fin m)) := by
        rw [disjoint_left]; intro j h1 h2
        simp only [mem_union, mem_filter, mem_univ, true_and] at h1 h2
        rcases h1 with h1 | h1 <;> linarith
      rw [← card_union_of_disjoint hd1, ← card_union_of_disjoint hd2]
      have : (({j | x j < x i} : Finset (Fin m)) ∪ ({j | x j = x i} : Finset (Fin m))) ∪ ({j | x i < x j} : Finset (Fin m)) = univ := by
        ext j; simp only [mem_union, mem_filter, mem_univ, true_and, iff_true]
        rcases lt_trichotomy (x j) (x i) with h | h | h <;> tauto
      rw [this]; simp
    exact_mod_cast h1
  unfold avgRank
  simp only [← h, ← he]
  linarith

lemma cross_affine (x y : Fin m → ℝ) (c : ℝ) :
    cross (fun i => c - x i) y = - cross x y ∧ cross y (fun i => c - x i) = - cross y x := by
  rcases Nat.eq_zero_or_pos m with rfl | hm
  · simp [cross]
  have hm' : (m : ℝ) ≠ 0 := by positivity
  have hmean : mean (fun i => c - x i) = c - mean x := by
    unfold mean
    rw [Finset.sum_sub_distrib]
    simp only [sum_const, card_univ, Fintype.card_fin, nsmul_eq_mul]
    field_simp
  unfold cross
  rw [hmean]
  constructor <;>
  · rw [← Finset.sum_neg_distrib]
    apply Finset.sum_congr rfl
    intro i _
    ring

lemma pearson_reflect_left (x y : Fin m → ℝ) (c : ℝ) : pearson (fun i => c - x i) y = (pearson x y).map Neg.neg := by
  unfold pearson
  have h1 : cross (fun i => c - x i) (fun i => c - x i) = cross x x := by
    rw [(cross_affine x _ c).1, (cross_affine x x c).2, neg_neg]
  rw [h1, (cross_affine x y c).1]
  split_ifs with h
  · rfl
  · simp [neg_div]

lemma cross_comm (x y : Fin m → ℝ) : cross x y = cross y x := by
  unfold cross; exact Finset.sum_congr rfl fun i _ => mul_comm _ _

lemma pearson_comm (x y : Fin m → ℝ) : pearson x y = pearson y x := by
  unfold pearson
  simp only [cross_comm x y, or_comm, mul_comm (Real.sqrt (cross x x))]

lemma pearson_reflect_right (x y : Fin m → ℝ) (c : ℝ) : pearson x (fun i => c - y i) = (pearson x y).map Neg.neg := by
  rw [pearson_comm, pearson_reflect_left, pearson_comm]

lemma spearman_anti_left {x x' : Fin m → ℝ} (y : Fin m → ℝ) (h : ∀ i j, x i < x j ↔ x' j < x' i) :
    spearman x' y = (spearman x y).map Neg.neg := by
  unfold spearman
  rw [show avgRank x' = fun i => (m + 1 : ℝ) - avgRank x i from funext fun i => avgRank_anti h i, pearson_reflect_left]

lemma spearman_comm (x y : Fin m → ℝ) : spearman x y = spearman y x := pearson_comm _ _

/-- **C40** (scores). Multiplying the scores of each test sample by a positive constant does not change the LDS. -/
theorem C40_positive_scaling (nTrain nTest : ℕ) (score : ℕ → ℕ → ℝ) (gt : Fin m → ℕ → ℝ) (subsets : Fin m → List ℕ) (c : ℕ → ℝ)
    (hc : ∀ t, 0 < c t) : lds nTrain nTest (fun k t => c t * score k t) gt subsets = lds nTrain nTest score gt subsets := by
  unfold lds
  congr 3
  funext t
  unfold spearman
  congr 1
  apply avgRank_congr
  intro i j
  unfold sumScores
  rw [List.sum_map_mul_left, List.sum_map_mul_left]
  exact mul_lt_mul_iff_right₀ (hc t)

/-- **C40** (scores). Adding a constant to all scores does not change the LDS when all subsets have the same size. -/
theorem C40_shift (nTrain nTest : ℕ) (score : ℕ → ℕ → ℝ) (gt : Fin m → ℕ → ℝ) (subsets : Fin m → List ℕ) (c : ℕ → ℝ)
    (hs : ∀ i j, (subsets i).length = (subsets j).length) :
    lds nTrain nTest (fun k t => score k t + c t) gt subsets = lds nTrain nTest score gt subsets := by
  unfold lds
  congr 3
  funext t
  unfold spearman
  congr 1
  apply avgRank_congr
  intro i j
  have h : ∀ l : List ℕ, (l.map (fun k => score k t + c t)).sum = (l.map (fun k => score k t)).sum + l.length * c t := by
    intro l
    induction l with
    | nil => simp
    | cons a l ih => simp only [List.map_cons, List.sum_cons, List.length_cons, ih]; push_cast; ring
  unfold sumScores
  rw [h, h, hs i j]
  exact add_lt_add_iff_right _

/-- **C40** (index order). The order of the indices inside the subsets does not matter. -/
theorem C40_subset_order (nTrain nTest : ℕ) (score : ℕ → ℕ → ℝ) (gt : Fin m → ℕ → ℝ) (subsets subsets' : Fin m → List ℕ)
    (hp : ∀ i, (subsets i).Perm (subsets' i)) : lds nTrain nTest score gt subsets = lds nTrain nTest score gt subsets' := by
  have h1 : (∃ i, ∃ k ∈ subsets i, nTrain ≤ k) ↔ ∃ i, ∃ k ∈ subsets' i, nTrain ≤ k := by simp only [(hp _).mem_iff]
  have h2 : ∀ t, sumScores score subsets t = sumScores score subsets' t := by
    intro t; funext i; exact ((hp i).map _).sum_eq
  unfold lds
  simp only [h1, h2]

/-- **C40** (ground truth). A strictly increasing map of the ground truth does not change the LDS. -/
theorem C40_gt_increasing (nTrain nTest : ℕ) (score : ℕ → ℕ → ℝ) (gt : Fin m → ℕ → ℝ) (subsets : Fin m → List ℕ) (φ : ℕ → ℝ → ℝ)
    (hφ : ∀ t, StrictMono (φ t)) : lds nTrain nTest score (fun i t => φ t (gt i t)) subsets = lds nTrain nTest score gt subsets := by
  unfold lds
  congr 3
  funext t
  unfold spearman
  congr 1
  exact avgRank_congr fun i j => (hφ t).lt_iff_lt

/-- Negate every correlation. -/
def negAll : List (Option ℝ) → List (Option ℝ) := List.map (Option.map Neg.neg)

/-- **C40** (negation). A strictly decreasing map of the ground truth, or a negative multiple of the scores, negates the LDS. -/
theorem C40_decreasing (nTrain nTest : ℕ) (score : ℕ → ℕ → ℝ) (gt : Fin m → ℕ → ℝ) (subsets : Fin m → List ℕ) :
    (∀ φ : ℕ → ℝ → ℝ, (∀ t, StrictAnti (φ t)) →
      lds nTrain nTest score (fun i t => φ t (gt i t)) subsets = (lds nTrain nTest score gt subsets).map negAll) ∧
    (∀ c : ℕ → ℝ, (∀ t, c t < 0) →
      lds nTrain nTest (fun k t => c t * score k t) gt subsets = (lds nTrain nTest score gt subsets).map negAll) := by
  constructor
  · intro φ hφ
    unfold lds
    split_ifs with h
    · rfl
    · simp only [Except.map, negAll, List.map_map]
      congr 2
      funext t
      simp only [Function.comp]
      rw [spearman_comm, spearman_comm (sumScores score subsets t)]
      exact spearman_anti_left _ fun i j => (hφ t).lt_iff_gt.symm
  · intro c hc
    unfold lds
    split_ifs with h
    · rfl
    · simp only [Except.map, negAll, List.map_map]
      congr 2
      funext t
      simp only [Function.comp]
      apply spearman_anti_left
      intro i j
      unfold sumScores
      rw [List.sum_map_mul_left, List.sum_map_mul_left]
      exact (mul_lt_mul_left_of_neg (hc t)).symm

lemma cross_self_nonneg (x : Fin m → ℝ) : 0 ≤ cross x x := Finset.sum_nonneg fun i _ => mul_self_nonneg _

lemma cross_self_eq_zero (x : Fin m → ℝ) : cross x x = 0 ↔ ∀ i j, x i = x j := by
  constructor
  · intro h i j
    have := (Finset.sum_eq_zero_iff_of_nonneg (fun i _ => mul_self_nonneg (x i - mean x))).1 h
    have h1 := mul_self_eq_zero.1 (this i (mem_univ i))
    have h2 := mul_self_eq_zero.1 (this j (mem_univ j))
    linarith
  · intro h
    rcases Nat.eq_zero_or_pos m with rfl | hm
    · simp [cross]
    have hm' : (m : ℝ) ≠ 0 := by positivity
    apply Finset.sum_eq_zero
    intro i _
    have : mean x = x i := by
      unfold mean
      rw [Finset.sum_congr rfl (fun j _ => h j i)]
      simp only [sum_const, card_univ, Fintype.card_fin, nsmul_eq_mul]
      field_simp
    rw [this]; ring

lemma rank_const_iff (x : Fin m → ℝ) : (∀ i j, avgRank x i = avgRank x j) ↔ ∀ i j, x i = x j := by
  constructor
  · intro h
    have key : ∀ i j, ¬ x i < x j := by
      intro i j hij
      have hr := h i j
      unfold avgRank at hr
      have h1 : #{k | x k < x i} + #{k | x k = x i} ≤ #{k | x k < x j} := by
        rw [← card_union_of_disjoint]
        · apply card_le_card
          intro k hk
          simp only [mem_union, mem_filter, mem_univ, true_and] at hk ⊢
          rcases hk with hk | hk <;> linarith
        · rw [disjoint_filter]; intro k _ a b; exact absurd b a.ne
      have h2 : (#{k | x k < x i} : ℝ) + #{k | x k = x i} ≤ #{k | x k < x j} := by exact_mod_cast h1
      have h3 : (1 : ℝ) ≤ #{k | x k = x i} := by
        have : 0 < #{k | x k = x i} := card_pos.2 ⟨i, by simp⟩
        exact_mod_cast this
      have h4 : (1 : ℝ) ≤ #{k | x k = x j} := by
        have : 0 < #{k | x k = x j} := card_pos.2 ⟨j, by simp⟩
        exact_mod_cast this
      linarith
    intro i j
    exact le_antisymm (not_lt.1 (key j i)) (not_lt.1 (key i j))
  · intro h i j
    unfold avgRank
    rw [h i j]

/-- **C41** (definedness). The LDS of a test sample is a number iff neither the subset score sums nor the ground truth are constant over the
subsets; otherwise it is NaN. -/
theorem C41_defined_iff (x y : Fin m → ℝ) : spearman x y ≠ none ↔ (∃ i j, x i ≠ x j) ∧ ∃ i j, y i ≠ y j := by
  unfold spearman pearson
  have h1 := (cross_self_eq_zero (avgRank x)).trans (rank_const_iff x)
  have h2 := (cross_self_eq_zero (avgRank y)).trans (rank_const_iff y)
  have e1 : (∃ i j, x i ≠ x j) ↔ ¬ ∀ i j, x i = x j := by push Not; rfl
  have e2 : (∃ i j, y i ≠ y j) ↔ ¬ ∀ i j, y i = y j := by push Not; rfl
  rw [e1, e2, ← h1, ← h2]
  split_ifs with h
  · simp only [ne_eq, not_true_eq_false, false_iff]; tauto
  · simp only [ne_eq, reduceCtorEq, not_false_eq_true, true_iff]; tauto

lemma pearson_bound (x y : Fin m → ℝ) (v : ℝ) (h : pearson x y = some v) : -1 ≤ v ∧ v ≤ 1 := by
  unfold pearson at h
  split_ifs at h with hz
  injection h with h
  push Not at hz
  have hx := lt_of_le_of_ne (cross_self_nonneg x) (Ne.symm hz.1)
  have hy := lt_of_le_of_ne (cross_self_nonneg y) (Ne.symm hz.2)
  have hcs : cross x y ^ 2 ≤ cross x x * cross y y := by
    have := Finset.sum_mul_sq_le_sq_mul_sq univ (fun i => x i - mean x) (fun i => y i - mean y)
    simpa [cross, pow_two] using this
  have hs : |cross x y| ≤ Real.sqrt (cross x x) * Real.sqrt (cross y y) := by
    rw [← Real.sqrt_mul hx.le]
    exact Real.abs_le_sqrt hcs
  have hpos : 0 < Real.sqrt (cross x x) * Real.sqrt (cross y y) := mul_pos (Real.sqrt_pos.2 hx) (Real.sqrt_pos.2 hy)
  rw [abs_le] at hs
  rw [← h]
  constructor
  · rw [le_div_iff₀ hpos]; linarith
  · rw [div_le_one hpos]; exact hs.2

/-- **C41** (range). Every defined LDS value lies in `[-1, 1]`. -/
theorem C41_range (nTrain nTest : ℕ) (score : ℕ → ℕ → ℝ) (gt : Fin m → ℕ → ℝ) (subsets : Fin m → List ℕ) (r : List (Option ℝ))
    (h : lds nTrain nTest score gt subsets = .ok r) (v : ℝ) (hv : some v ∈ r) : -1 ≤ v ∧ v ≤ 1 := by
  unfold lds at h
  split_ifs at h
  injection h with h
  subst h
  obtain ⟨t, -, ht⟩ := List.mem_map.1 hv
  exact pearson_bound _ _ v ht

/-- **C41** (perfect score). If the subset score sums and the ground truth order the subsets identically (and are not constant), the LDS is 1;
if they order them oppositely it is -1. -/
theorem C41_perfect (x y : Fin m → ℝ) (hx : ∃ i j, x i ≠ x j) :
    ((∀ i j, x i < x j ↔ y i < y j) → spearman x y = some 1) ∧ ((∀ i j, x i < x j ↔ y j < y i) → spearman x y = some (-1)) := by
  have hself : spearman x x = some 1 := by
    have hne : cross (avgRank x) (avgRank x) ≠ 0 := by
      rw [Ne, cross_self_eq_zero, rank_const_iff]; push Not; exact hx
    have hpos := lt_of_le_of_ne (cross_self_nonneg (avgRank x)) (Ne.symm hne)
    unfold spearman pearson
    rw [if_neg (by tauto), Real.mul_self_sqrt hpos.le, div_self hne]
  constructor
  · intro h
    unfold spearman at *
    rw [← avgRank_congr h]; exact hself
  · intro h
    rw [spearman_comm, spearman_anti_left x h, hself]
    rfl

/-- **C41** (symmetry). Exchanging the roles of predicted sums and ground truth gives the same correlation. -/
theorem C41_symmetric (x y : Fin m → ℝ) : spearman x y = spearman y x := spearman_comm x y

/-- **C41** (errors). The call raises `IndexError` iff some subset contains an index outside the training set. -/
theorem C41_index_error (nTrain nTest : ℕ) (score : ℕ → ℕ → ℝ) (gt : Fin m → ℕ → ℝ) (subsets : Fin m → List ℕ) :
    lds nTrain nTest score gt subsets = .error .indexError ↔ ∃ i, ∃ k ∈ subsets i, nTrain ≤ k := by
  unfold lds
  split_ifs with h <;> simp [h]

/-- A concrete case: three subsets, sums 1, 3, 2 and ground truth 10, 40, 20: LDS 1. -/
example : spearman ![1, 3, 2] ![10, 40, 20] = some 1 := by
  refine (C41_perfect _ _ ⟨0, 1, by simp⟩).1 ?_
  intro i j
  fin_cases i <;> fin_cases j <;> norm_num

end Verif.Metric
