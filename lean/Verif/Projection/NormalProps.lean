import Verif.Projection.GaussLemmas
import Verif.Projection.JLVarProps
import Mathlib.MeasureTheory.Measure.Real

/-!
# C167: what the normal projection does to inner products
-/

namespace Verif.Projection

open MeasureTheory ProbabilityTheory Finset

variable {d p : ℕ}

/-- The random source that produces the matrix `G`, cut into blocks of `B` columns with the seeds of ensemble 0. -/
noncomputable def normalRng (B : ℕ) (seed : ℤ) (G : Fin d × Fin p → ℝ) : Rng d :=
  ⟨fun _ s a j => if h : ((s - seed) / 1000).toNat * B + j < p then G (a, ⟨_, h⟩) else 0, fun _ => []⟩

/-- The normal `BasicProjector` whose draw is `G`. -/
noncomputable def normalProjector (block : ℕ) (seed : ℤ) (G : Fin d × Fin p → ℝ) : Basic d :=
  ⟨p, seed, .normal, block, 0, normalRng (min p block) seed G⟩

/-! ### Helper lemmas -/

lemma normalProjector_entry (block : ℕ) (seed : ℤ) (G : Fin d × Fin p → ℝ) (x : Fin d → ℝ) (j : Fin p) :
    idealEntry (normalProjector block seed G) 0 x j = (∑ a, x a * G (a, j)) / Real.sqrt p := by
  unfold idealEntry normalProjector normalRng
  simp only []
  congr 1
  apply Finset.sum_congr rfl
  intro a _
  have h1 : ((seed + 1000 * ((j / min p block : ℕ) : ℤ) + 100000 * 0 - seed) / 1000).toNat = j / min p block := by
    rw [show seed + 1000 * ((j / min p block : ℕ) : ℤ) + 100000 * 0 - seed = 1000 * ((j / min p block : ℕ) : ℤ) by ring,
      Int.mul_ediv_cancel_left _ (by decide)]
    exact Int.toNat_natCast _
  have h2 : ((seed + 1000 * ((j / min p block : ℕ) : ℤ) + 100000 * 0 - seed) / 1000).toNat * min p block + j % min p block = j := by
    rw [h1]; exact Nat.div_add_mod' _ _
  simp only [h2, j.2, dif_pos]

/-- The coefficients of the `j`-th column's linear form. -/
def col (x : Fin d → ℝ) (j : Fin p) : Fin d × Fin p → ℝ := fun q => if q.2 = j then x q.1 else 0

lemma lin_col (x : Fin d → ℝ) (j : Fin p) (G : Fin d × Fin p → ℝ) : lin (col x j) G = ∑ a, x a * G (a, j) := by
  simp [lin, col, Fintype.sum_prod_type]

lemma dot_col (x y : Fin d → ℝ) (j k : Fin p) : ∑ q, col x j q * col y k q = if j = k then ∑ a, x a * y a else 0 := by
  rw [Fintype.sum_prod_type]
  by_cases h : j = k
  · subst h
    simp [col]
  · simp [col, h, Ne.symm h]

lemma normal_row (block : ℕ) (seed : ℤ) (G : Fin d × Fin p → ℝ) (x y : Fin d → ℝ) :
    rowDot (idealRow (normalProjector block seed G) 0 x) (idealRow (normalProjector block seed G) 0 y) =
      (∑ j : Fin p, lin (col x j) G * lin (col y j) G) / p := by
  show rowDot ((List.range p).map _) ((List.range p).map _) = _
  rw [rowDot_map, show ((List.range p).map fun j => idealEntry (normalProjector block seed G) 0 x j * idealEntry (normalProjector block seed G) 0 y j).sum =
      ∑ j ∈ Finset.range p, idealEntry (normalProjector block seed G) 0 x j * idealEntry (normalProjector block seed G) 0 y j from rfl, Finset.sum_range,
    Finset.sum_div]
  apply Finset.sum_congr rfl
  intro j _
  rw [normalProjector_entry, normalProjector_entry, lin_col, lin_col, div_mul_div_comm, Real.mul_self_sqrt (Nat.cast_nonneg p)]

lemma normal_integrable (block : ℕ) (seed : ℤ) (x y : Fin d → ℝ) :
    Integrable (fun G : Fin d × Fin p → ℝ => rowDot (idealRow (normalProjector block seed G) 0 x) (idealRow (normalProjector block seed G) 0 y))
      (gauss (Fin d × Fin p)) := by
  simp only [normal_row]
  exact (integrable_finsetSum _ fun j _ => (gauss_two (col x j) (col y j)).1).div_const _

lemma normal_mean (block : ℕ) (seed : ℤ) (hp : 0 < p) (x y : Fin d → ℝ) :
    ∫ G : Fin d × Fin p → ℝ, rowDot (idealRow (normalProjector block seed G) 0 x) (idealRow (normalProjector block seed G) 0 y) ∂(gauss (Fin d × Fin p)) =
      ∑ a, x a * y a := by
  simp only [normal_row]
  rw [integral_div, integral_finsetSum _ fun j _ => (gauss_two (col x j) (col y j)).1]
  simp only [(gauss_two _ _).2, dot_col, if_true, sum_const, card_univ, Fintype.card_fin, nsmul_eq_mul]
  have : (p : ℝ) ≠ 0 := by exact_mod_cast hp.ne'
  field_simp

lemma normal_sq_eq (block : ℕ) (seed : ℤ) (x y : Fin d → ℝ) (G : Fin d × Fin p → ℝ) :
    rowDot (idealRow (normalProjector block seed G) 0 x) (idealRow (normalProjector block seed G) 0 y) ^ 2 =
      (∑ j : Fin p, ∑ k : Fin p, lin (col x j) G * lin (col y j) G * (lin (col x k) G * lin (col y k) G)) / (p : ℝ) ^ 2 := by
  rw [normal_row, div_pow, pow_two (∑ j : Fin p, _), sum_mul_sum]

lemma normal_sq (block : ℕ) (seed : ℤ) (hp : 0 < p) (x y : Fin d → ℝ) :
    Integrable (fun G : Fin d × Fin p → ℝ => rowDot (idealRow (normalProjector block seed G) 0 x) (idealRow (normalProjector block seed G) 0 y) ^ 2)
      (gauss (Fin d × Fin p)) ∧
    ∫ G : Fin d × Fin p → ℝ, rowDot (idealRow (normalProjector block seed G) 0 x) (idealRow (normalProjector block seed G) 0 y) ^ 2
      ∂(gauss (Fin d × Fin p)) =
      (∑ a, x a * y a) ^ 2 + ((∑ a, x a ^ 2) * (∑ a, y a ^ 2) + (∑ a, x a * y a) ^ 2) / p := by
  have hi : ∀ j k : Fin p, Integrable (fun G : Fin d × Fin p → ℝ => lin (col x j) G * lin (col y j) G * (lin (col x k) G * lin (col y k) G))
      (gauss (Fin d × Fin p)) := fun j k => (gauss_four _ _ _ _).1
  have hi' : ∀ j : Fin p, Integrable (fun G : Fin d × Fin p → ℝ => ∑ k, lin (col x j) G * lin (col y j) G * (lin (col x k) G * lin (col y k) G))
      (gauss (Fin d × Fin p)) := fun j => integrable_finsetSum _ fun k _ => hi j k
  simp only [normal_sq_eq]
  refine ⟨(integrable_finsetSum _ fun j _ => hi' j).div_const _, ?_⟩
  rw [integral_div, integral_finsetSum _ fun j _ => hi' j]
  have hj : ∀ j : Fin p, ∫ G : Fin d × Fin p → ℝ, (∑ k, lin (col x j) G * lin (col y j) G * (lin (col x k) G * lin (col y k) G))
      ∂(gauss (Fin d × Fin p)) = p * (∑ a, x a * y a) ^ 2 + ((∑ a, x a ^ 2) * (∑ a, y a ^ 2) + (∑ a, x a * y a) ^ 2) := by
    intro j
    rw [integral_finsetSum _ fun k _ => hi j k]
    simp only [(gauss_four _ _ _ _).2, dot_col, if_true, sum_add_distrib, sum_const, card_univ, Fintype.card_fin, nsmul_eq_mul]
    simp only [ite_mul, zero_mul, mul_ite, mul_zero]
    have h1 : ∀ a : Fin d, y a * x a = x a * y a := fun a => mul_comm _ _
    have h2 : ∀ (z : Fin d → ℝ) (a : Fin d), z a * z a = z a ^ 2 := fun z a => (pow_two _).symm
    simp only [h1, h2]
    have h3 : ∀ (k : Fin p) (r : ℝ), (if j = k then if j = k then r else 0 else 0) = if j = k then r else 0 := by
      intro k r; split_ifs <;> rfl
    simp only [h3, sum_ite_eq, mem_univ, if_true]
    ring
  simp only [hj, sum_const, card_univ, Fintype.card_fin, nsmul_eq_mul]
  have : (p : ℝ) ≠ 0 := by exact_mod_cast hp.ne'
  field_simp

lemma normal_var (block : ℕ) (seed : ℤ) (hp : 0 < p) (x y : Fin d → ℝ) :
    Integrable (fun G : Fin d × Fin p → ℝ =>
      (rowDot (idealRow (normalProjector block seed G) 0 x) (idealRow (normalProjector block seed G) 0 y) - ∑ a, x a * y a) ^ 2)
      (gauss (Fin d × Fin p)) ∧
    ∫ G : Fin d × Fin p → ℝ, (rowDot (idealRow (normalProjector block seed G) 0 x) (idealRow (normalProjector block seed G) 0 y) - ∑ a, x a * y a) ^ 2
      ∂(gauss (Fin d × Fin p)) =
      ((∑ a, x a ^ 2) * (∑ a, y a ^ 2) + (∑ a, x a * y a) ^ 2) / p := by
  obtain ⟨i2, e2⟩ := normal_sq block seed hp x y
  have i1 := normal_integrable (p := p) block seed x y
  have e1 := normal_mean block seed hp x y
  set s := ∑ a, x a * y a
  have hfun : (fun G : Fin d × Fin p → ℝ =>
      (rowDot (idealRow (normalProjector block seed G) 0 x) (idealRow (normalProjector block seed G) 0 y) - s) ^ 2) = fun G =>
      rowDot (idealRow (normalProjector block seed G) 0 x) (idealRow (normalProjector block seed G) 0 y) ^ 2 -
        2 * s * rowDot (idealRow (normalProjector block seed G) 0 x) (idealRow (normalProjector block seed G) 0 y) + s ^ 2 := by
    funext G
    ring
  rw [hfun]
  have j1 := integrable_fun_sub i2 (i1.const_mul (2 * s))
  refine ⟨j1.add (integrable_const _), ?_⟩
  rw [integral_add j1 (integrable_const _), integral_sub i2 (i1.const_mul _), integral_const_mul, e1, e2]
  simp
  ring

/-! ### C167 -/

/-- **C167** (mean). The inner product of two rows returned by the default `normal` `BasicProjector` after any history of calls has as its mean over the draw
the inner product of the rows, and its mean squared distance from it is `(|x|²|y|² + ⟨x, y⟩²) / p`. -/
theorem C167_normal (block : ℕ) (hb : 0 < block) (seed : ℤ) (hp : 0 < p) (x y : Fin d → ℝ) :
    ∃ u v : (Fin d × Fin p → ℝ) → List ℝ,
      (∀ G, ∃ st0, (normalProjector block seed G).init = .ok st0 ∧ ∀ h, ¬ (p ≤ block ∧ Lost 0 h 0) →
        ((normalProjector block seed G).project ((normalProjector block seed G).run st0 h) [x, y] 0).2 = .ok [u G, v G]) ∧
      ∫ G, rowDot (u G) (v G) ∂(Measure.pi fun _ => gaussianReal 0 1) = ∑ a, x a * y a ∧
      ∫ G, (rowDot (u G) (v G) - ∑ a, x a * y a) ^ 2 ∂(Measure.pi fun _ => gaussianReal 0 1) =
        ((∑ a, x a ^ 2) * (∑ a, y a ^ 2) + (∑ a, x a * y a) ^ 2) / p := by
  refine ⟨fun G => idealRow (normalProjector block seed G) 0 x, fun G => idealRow (normalProjector block seed G) 0 y, fun G => ?_,
    normal_mean block seed hp x y, (normal_var block seed hp x y).2⟩
  obtain ⟨st0, h0, hh⟩ := C28_history (normalProjector block seed G) (Or.inl rfl) hp hb
  refine ⟨st0, h0, fun h hl => (hh h [x, y] 0).2 fun he => hl ?_⟩
  exact ((hh h [x, y] 0).1.1 he).2

/-- **C167** (all scores). Project `n` training rows and `m` test rows with one normal projector. The probability that some inner product of a projected training
row with a projected test row is off by more than `ε` times the norms is at most `2 n m / (p ε²)`. -/
theorem C167_all_scores (block : ℕ) (hb : 0 < block) (seed : ℤ) (hp : 0 < p) (n m : ℕ) (xs : Fin n → Fin d → ℝ) (ys : Fin m → Fin d → ℝ) (ε : ℝ)
    (hε : 0 < ε) :
    ∃ (u : (Fin d × Fin p → ℝ) → Fin n → List ℝ) (v : (Fin d × Fin p → ℝ) → Fin m → List ℝ),
      (∀ G, ∃ st0, (normalProjector block seed G).init = .ok st0 ∧ ∀ h, ¬ (p ≤ block ∧ Lost 0 h 0) →
        ((normalProjector block seed G).project ((normalProjector block seed G).run st0 h) (List.ofFn xs) 0).2 = .ok (List.ofFn (u G)) ∧
        ((normalProjector block seed G).project ((normalProjector block seed G).run st0 h) (List.ofFn ys) 0).2 = .ok (List.ofFn (v G))) ∧
      (Measure.pi fun _ => gaussianReal 0 1).real {G | ∃ i j, ε * (Real.sqrt (∑ a, xs i a ^ 2) * Real.sqrt (∑ a, ys j a ^ 2)) <
        |rowDot (u G i) (v G j) - ∑ a, xs i a * ys j a|} ≤ 2 * (n * m) / (p * ε ^ 2) := by
  refine ⟨fun G i => idealRow (normalProjector block seed G) 0 (xs i), fun G j => idealRow (normalProjector block seed G) 0 (ys j), fun G => ?_, ?_⟩
  · obtain ⟨st0, h0, hh⟩ := C28_history (normalProjector block seed G) (Or.inl rfl) hp hb
    refine ⟨st0, h0, fun h hl => ⟨?_, ?_⟩⟩
    · rw [(hh h (List.ofFn xs) 0).2 fun he => hl ((hh h (List.ofFn xs) 0).1.1 he).2, List.map_ofFn]
      rfl
    · rw [(hh h (List.ofFn ys) 0).2 fun he => hl ((hh h (List.ofFn ys) 0).1.1 he).2, List.map_ofFn]
      rfl
  · change (gauss (Fin d × Fin p)).real _ ≤ _
    set bad : Fin n → Fin m → Set (Fin d × Fin p → ℝ) := fun i j =>
      {G | ε * (Real.sqrt (∑ a, xs i a ^ 2) * Real.sqrt (∑ a, ys j a ^ 2)) <
        |rowDot (idealRow (normalProjector block seed G) 0 (xs i)) (idealRow (normalProjector block seed G) 0 (ys j)) - ∑ a, xs i a * ys j a|} with hbad
    have hp' : (0 : ℝ) < p := by exact_mod_cast hp
    have hone : ∀ i j, (gauss (Fin d × Fin p)).real (bad i j) ≤ 2 / (p * ε ^ 2) := by
      intro i j
      obtain ⟨hi, he⟩ := normal_var block seed hp (xs i) (ys j)
      set X := ∑ a, xs i a ^ 2 with hX
      set Y := ∑ a, ys j a ^ 2 with hY
      have hX0 : 0 ≤ X := sum_nonneg fun a _ => sq_nonneg _
      have hY0 : 0 ≤ Y := sum_nonneg fun a _ => sq_nonneg _
      have hcs : (∑ a, xs i a * ys j a) ^ 2 ≤ X * Y := sum_mul_sq_le_sq_mul_sq univ (xs i) (ys j)
      by_cases h0 : X * Y = 0
      · -- one of the rows is zero: the error is zero almost surely
        have hz : ∀ G : Fin d × Fin p → ℝ, G ∉ bad i j := by
          intro G
          have hrow : rowDot (idealRow (normalProjector block seed G) 0 (xs i)) (idealRow (normalProjector block seed G) 0 (ys j)) = 0 := by
            rw [normal_row]
            simp only [lin_col]
            rcases mul_eq_zero.1 h0 with h | h
            · have : ∀ a, xs i a = 0 := fun a => by
                have := (sum_eq_zero_iff_of_nonneg (fun a _ => sq_nonneg (xs i a))).1 h a (mem_univ a)
                exact pow_eq_zero_iff (two_ne_zero) |>.1 this
              simp [this]
            · have : ∀ a, ys j a = 0 := fun a => by
                have := (sum_eq_zero_iff_of_nonneg (fun a _ => sq_nonneg (ys j a))).1 h a (mem_univ a)
                exact pow_eq_zero_iff (two_ne_zero) |>.1 this
              simp [this]
          have hs : ∑ a, xs i a * ys j a = 0 := by
            rw [h0] at hcs
            exact pow_eq_zero_iff (two_ne_zero) |>.1 (le_antisymm hcs (sq_nonneg _))
          simp only [hbad, Set.mem_ofPred_eq, hrow, hs, sub_zero, abs_zero, not_lt]
          positivity
        rw [Set.eq_empty_of_forall_notMem hz]
        simp
        positivity
      · have hXY : 0 < X * Y := lt_of_le_of_ne (mul_nonneg hX0 hY0) (Ne.symm h0)
        have hmk := mul_meas_ge_le_integral_of_nonneg (μ := gauss (Fin d × Fin p)) (Filter.Eventually.of_forall fun G => sq_nonneg _) hi (ε ^ 2 * (X * Y))
        rw [he] at hmk
        have hsub : (gauss (Fin d × Fin p)).real (bad i j) ≤ (gauss (Fin d × Fin p)).real {G | ε ^ 2 * (X * Y) ≤
            (rowDot (idealRow (normalProjector block seed G) 0 (xs i)) (idealRow (normalProjector block seed G) 0 (ys j)) - ∑ a, xs i a * ys j a) ^ 2} := by
          refine measureReal_mono (fun G hG => ?_)
          have h1 : (ε * (Real.sqrt X * Real.sqrt Y)) ^ 2 = ε ^ 2 * (X * Y) := by
            rw [mul_pow, mul_pow, Real.sq_sqrt hX0, Real.sq_sqrt hY0]
          rw [Set.mem_ofPred_eq, ← h1, ← sq_abs (rowDot _ _ - _)]
          exact pow_le_pow_left₀ (by positivity) (le_of_lt hG) 2
        refine hsub.trans ?_
        rw [le_div_iff₀ (by positivity)]
        have h2 : (X * Y + (∑ a, xs i a * ys j a) ^ 2) / p ≤ 2 * (X * Y) / p := by
          apply div_le_div_of_nonneg_right _ hp'.le
          linarith
        have h3 := hmk.trans h2
        rw [le_div_iff₀ hp'] at h3
        nlinarith [h3, hXY]
    have hcover : {G : Fin d × Fin p → ℝ | ∃ i j, ε * (Real.sqrt (∑ a, xs i a ^ 2) * Real.sqrt (∑ a, ys j a ^ 2)) <
        |rowDot (idealRow (normalProjector block seed G) 0 (xs i)) (idealRow (normalProjector block seed G) 0 (ys j)) - ∑ a, xs i a * ys j a|} =
        ⋃ q : Fin n × Fin m, bad q.1 q.2 := by
      ext G
      simp [hbad]
    rw [hcover]
    refine (measureReal_iUnion_fintype_le _).trans ((sum_le_sum fun q _ => hone q.1 q.2).trans (le_of_eq ?_))
    simp
    ring

/-- A concrete case: 2 training and 3 test rows of dimension 4 and a projection to 1200 dimensions in blocks of 100: with probability at least 0.99 all six
scores are within the product of the norms. -/
example : (2 : ℝ) * (2 * 3) / (1200 * 1 ^ 2) = 1 / 100 := by norm_num

/-- One draw with `d = 2`, `p = 1`: the projection of `(3, 4)` by the column `(2, 1/2)`. -/
example : idealRow (normalProjector (d := 2) (p := 1) 100 5 (fun q => if q.1 = 0 then 2 else 1 / 2)) 0 ![3, 4] = [8] := by
  have h := normalProjector_entry (d := 2) (p := 1) 100 5 (fun q => if q.1 = 0 then 2 else 1 / 2) ![3, 4] 0
  show (List.range 1).map _ = _
  simp only [List.range_one, List.map_cons, List.map_nil]
  refine (congrArg (fun z => [z]) h).trans ?_
  simp [Fin.sum_univ_two]; norm_num

end Verif.Projection
