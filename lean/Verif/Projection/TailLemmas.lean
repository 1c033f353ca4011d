import Verif.Projection.GaussLemmas
import Mathlib.Probability.Moments.SubGaussian
import Mathlib.Analysis.SpecialFunctions.Gaussian.GaussianIntegral
import Mathlib.Analysis.SpecialFunctions.Trigonometric.Series
import Mathlib.Analysis.Complex.ExponentialBounds
import Mathlib.Tactic.Linarith
import Mathlib.Tactic.Positivity

/-!
# Exponential tails of sums of squares of sub-Gaussian forms
-/

namespace Verif.Projection

open MeasureTheory ProbabilityTheory Finset

variable {Ω : Type} [MeasurableSpace Ω] {P : Measure Ω} [IsProbabilityMeasure P]

lemma inv_sqrt_le {t : ℝ} (h0 : 0 ≤ t) (h1 : t ≤ 1 / 4) : (Real.sqrt (1 - 2 * t))⁻¹ ≤ Real.exp (t + 2 * t ^ 2) := by
  have hpos : 0 < 1 - 2 * t := by linarith
  have hq := Real.quadratic_le_exp_of_nonneg (x := 2 * t + 4 * t ^ 2) (by positivity)
  have hkey : 1 ≤ (1 - 2 * t) * Real.exp (2 * t + 4 * t ^ 2) := by
    refine le_trans ?_ (mul_le_mul_of_nonneg_left hq hpos.le)
    have h2 : 0 ≤ t ^ 2 * (1 - 2 * t - 4 * t ^ 2 - 8 * t ^ 3) := by
      refine mul_nonneg (sq_nonneg t) ?_
      have a1 : t ^ 2 ≤ (1 / 4) ^ 2 := pow_le_pow_left₀ h0 h1 2
      have a2 : t ^ 3 ≤ (1 / 4) ^ 3 := pow_le_pow_left₀ h0 h1 3
      norm_num at a1 a2
      linarith
    nlinarith [h2]
  have he : Real.exp (t + 2 * t ^ 2) ^ 2 = Real.exp (2 * t + 4 * t ^ 2) := by
    rw [← Real.exp_nat_mul]
    congr 1
    push_cast
    ring
  rw [inv_le_comm₀ (Real.sqrt_pos.2 hpos) (Real.exp_pos _)]
  apply Real.le_sqrt_of_sq_le
  rw [inv_pow, he, inv_le_comm₀ (Real.exp_pos _) hpos, inv_le_iff_one_le_mul₀ hpos, mul_comm]
  exact hkey

/-- The moment generating function of the square of a standard normal variable. -/
lemma gauss_sq {t : ℝ} (h0 : 0 ≤ t) (h1 : t ≤ 1 / 4) :
    Integrable (fun g : ℝ => Real.exp (t * g ^ 2)) (gaussianReal 0 1) ∧
      ∫ g, Real.exp (t * g ^ 2) ∂(gaussianReal 0 1) ≤ Real.exp (t + 2 * t ^ 2) := by
  have hb : 0 < 1 / 2 - t := by linarith
  have hfun : (fun x : ℝ => gaussianPDFReal 0 1 x • Real.exp (t * x ^ 2)) = fun x => (Real.sqrt (2 * Real.pi))⁻¹ * Real.exp (-(1 / 2 - t) * x ^ 2) := by
    funext x
    rw [gaussianPDFReal, smul_eq_mul, mul_assoc, ← Real.exp_add]
    simp only [NNReal.coe_one, mul_one, sub_zero]
    congr 2
    ring
  have hint : Integrable (fun x : ℝ => gaussianPDFReal 0 1 x • Real.exp (t * x ^ 2)) := by
    rw [hfun]
    exact (integrable_exp_neg_mul_sq hb).const_mul _
  constructor
  · rw [gaussianReal_of_var_ne_zero 0 one_ne_zero, gaussianPDF_def, integrable_withDensity_iff_integrable_smul₀']
    · refine hint.congr (ae_of_all _ fun x => ?_)
      simp only []
      rw [ENNReal.toReal_ofReal (gaussianPDFReal_nonneg 0 1 x)]
    · exact (measurable_gaussianPDFReal 0 1).ennreal_ofReal.aemeasurable
    · exact ae_of_all _ fun x => ENNReal.ofReal_lt_top
  · rw [integral_gaussianReal_eq_integral_smul one_ne_zero, hfun, integral_const_mul, integral_gaussian]
    refine le_trans (le_of_eq ?_) (inv_sqrt_le h0 h1)
    rw [← Real.sqrt_inv, ← Real.sqrt_inv, ← Real.sqrt_mul (by positivity)]
    congr 1
    have : (1 - 2 * t) ≠ 0 := by linarith
    have h3 : (1 / 2 - t) ≠ 0 := hb.ne'
    have : Real.pi ≠ 0 := Real.pi_ne_zero
    field_simp

/-- The moment generating function of the square of a sub-Gaussian variable: compare with an independent normal variable. -/
lemma sub_sq {X : Ω → ℝ} (hm : Measurable X) (hX : HasSubgaussianMGF X 1 P) {t : ℝ} (h0 : 0 ≤ t) (h1 : t ≤ 1 / 4) :
    Integrable (fun ω => Real.exp (t * X ω ^ 2)) P ∧ mgf (fun ω => X ω ^ 2) P t ≤ Real.exp (t + 2 * t ^ 2) := by
  set s := Real.sqrt (2 * t) with hs
  have hs2 : s ^ 2 = 2 * t := Real.sq_sqrt (by positivity)
  have hg : ∀ l : ℝ, ∫⁻ g, ENNReal.ofReal (Real.exp (l * g)) ∂(gaussianReal 0 1) = ENNReal.ofReal (Real.exp (l ^ 2 / 2)) := by
    intro l
    rw [← ofReal_integral_eq_lintegral_ofReal (integrable_exp_mul_gaussianReal l) (ae_of_all _ fun x => (Real.exp_pos _).le)]
    have := congrFun (mgf_id_gaussianReal (μ := 0) (v := 1)) l
    simp only [mgf, id, zero_mul, zero_add, NNReal.coe_one, one_mul] at this
    rw [this]
  have hlin : ∫⁻ ω, ENNReal.ofReal (Real.exp (t * X ω ^ 2)) ∂P ≤ ENNReal.ofReal (Real.exp (t + 2 * t ^ 2)) := by
    calc ∫⁻ ω, ENNReal.ofReal (Real.exp (t * X ω ^ 2)) ∂P
        = ∫⁻ ω, ∫⁻ g, ENNReal.ofReal (Real.exp (s * X ω * g)) ∂(gaussianReal 0 1) ∂P := by
          refine lintegral_congr fun ω => ?_
          rw [hg]
          congr 2
          rw [mul_pow, hs2]
          ring
      _ = ∫⁻ g, ∫⁻ ω, ENNReal.ofReal (Real.exp (s * X ω * g)) ∂P ∂(gaussianReal 0 1) := by
          refine lintegral_lintegral_swap ?_
          have : Measurable fun z : Ω × ℝ => ENNReal.ofReal (Real.exp (s * X z.1 * z.2)) := by fun_prop
          exact this.aemeasurable
      _ ≤ ∫⁻ g, ENNReal.ofReal (Real.exp (t * g ^ 2)) ∂(gaussianReal 0 1) := by
          refine lintegral_mono fun g => ?_
          have h2 := hX.integrable_exp_mul (s * g)
          have h3 := hX.mgf_le (s * g)
          have e : ∀ ω, s * X ω * g = s * g * X ω := fun ω => by ring
          simp only [e]
          rw [← ofReal_integral_eq_lintegral_ofReal h2 (ae_of_all _ fun x => (Real.exp_pos _).le)]
          refine ENNReal.ofReal_le_ofReal (h3.trans (le_of_eq ?_))
          congr 1
          rw [mul_pow, hs2, NNReal.coe_one]
          ring
      _ ≤ ENNReal.ofReal (Real.exp (t + 2 * t ^ 2)) := by
          obtain ⟨h2, h3⟩ := gauss_sq h0 h1
          rw [← ofReal_integral_eq_lintegral_ofReal h2 (ae_of_all _ fun x => (Real.exp_pos _).le)]
          exact ENNReal.ofReal_le_ofReal h3
  have hmeas : Measurable fun ω => Real.exp (t * X ω ^ 2) := by fun_prop
  have hint : Integrable (fun ω => Real.exp (t * X ω ^ 2)) P := by
    refine ⟨hmeas.aestronglyMeasurable, ?_⟩
    rw [hasFiniteIntegral_iff_ofReal (ae_of_all _ fun x => (Real.exp_pos _).le)]
    exact lt_of_le_of_lt hlin ENNReal.ofReal_lt_top
  refine ⟨hint, ?_⟩
  rw [← ofReal_integral_eq_lintegral_ofReal hint (ae_of_all _ fun x => (Real.exp_pos _).le)] at hlin
  exact (ENNReal.ofReal_le_ofReal_iff (Real.exp_pos _).le).1 hlin

lemma four_le_cosh (x : ℝ) : 1 + x ^ 2 / 2 + x ^ 4 / 24 ≤ Real.cosh x := by
  have h := sum_le_hasSum (range 3) (fun n _ => by
    have : 0 ≤ x ^ (2 * n) := by rw [pow_mul]; positivity
    positivity) (Real.hasSum_cosh x)
  simp only [sum_range_succ, sum_range_zero] at h
  norm_num [Nat.factorial] at h
  linarith

/-- The fourth moment of a sub-Gaussian variable of variance one. -/
lemma sub_four {X : Ω → ℝ} (hX : HasSubgaussianMGF X 1 P) (hv : ∫ ω, X ω ^ 2 ∂P = 1) :
    Integrable (fun ω => X ω ^ 2) P ∧ Integrable (fun ω => X ω ^ 4) P ∧ ∫ ω, X ω ^ 4 ∂P ≤ 4 := by
  have i2 : Integrable (fun ω => X ω ^ 2) P := (hX.memLp 2).integrable_sq
  have i4 : Integrable (fun ω => X ω ^ 4) P := by
    have := (hX.memLp 4).integrable_norm_pow (by norm_num : (4 : ℕ) ≠ 0)
    refine this.congr (ae_of_all _ fun ω => ?_)
    simp only [Real.norm_eq_abs]
    exact Even.pow_abs (by decide) _
  refine ⟨i2, i4, ?_⟩
  have e1 := hX.integrable_exp_mul 1
  have e2 := hX.integrable_exp_mul (-1)
  have b1 := hX.mgf_le 1
  have b2 := hX.mgf_le (-1)
  have hc : ∀ ω, Real.cosh (X ω) = (Real.exp (1 * X ω) + Real.exp (-1 * X ω)) / 2 := fun ω => by
    rw [Real.cosh_eq]
    simp
  have hle : ∫ ω, (1 + X ω ^ 2 / 2 + X ω ^ 4 / 24) ∂P ≤ ∫ ω, (Real.exp (1 * X ω) + Real.exp (-1 * X ω)) / 2 ∂P := by
    refine integral_mono (((integrable_const _).add (i2.div_const 2)).add (i4.div_const 24)) ((e1.add e2).div_const 2) fun ω => ?_
    simp only []
    rw [← hc]
    exact four_le_cosh _
  have j2 : Integrable (fun ω => 1 + X ω ^ 2 / 2) P := (integrable_const _).add (i2.div_const 2)
  rw [integral_div, integral_add e1 e2, integral_add j2 (i4.div_const 24),
    integral_add (integrable_const _) (i2.div_const 2), integral_div, integral_div, hv] at hle
  simp only [mgf, NNReal.coe_one] at b1 b2
  norm_num at b1 b2 hle
  have hexp : Real.exp (1 / 2) ≤ 5 / 3 := by
    have h := Real.exp_one_lt_d9
    have hh : Real.exp (1 / 2) ^ 2 = Real.exp 1 := by
      rw [← Real.exp_nat_mul]
      norm_num
    have hp := Real.exp_pos (1 / 2)
    nlinarith
  linarith

lemma exp_neg_le (x : ℝ) (hx : 0 ≤ x) : Real.exp (-x) ≤ 1 - x + x ^ 2 / 2 := by
  have h := Real.quadratic_le_exp_of_nonneg hx
  rw [Real.exp_neg, inv_le_comm₀ (Real.exp_pos _) (by nlinarith [sq_nonneg (x - 1)])]
  refine le_trans ?_ h
  rw [inv_le_iff_one_le_mul₀ (by nlinarith [sq_nonneg (x - 1)])]
  nlinarith [sq_nonneg (x ^ 2)]

/-- The lower side. -/
lemma sub_low {X : Ω → ℝ} (hm : Measurable X) (hX : HasSubgaussianMGF X 1 P) (hv : ∫ ω, X ω ^ 2 ∂P = 1) {t : ℝ} (h0 : 0 ≤ t) :
    Integrable (fun ω => Real.exp (-t * X ω ^ 2)) P ∧ mgf (fun ω => X ω ^ 2) P (-t) ≤ Real.exp (-t + 2 * t ^ 2) := by
  obtain ⟨i2, i4, h4⟩ := sub_four hX hv
  have hint : Integrable (fun ω => Real.exp (-t * X ω ^ 2)) P := by
    refine Integrable.mono' (integrable_const (1 : ℝ)) (by fun_prop) (ae_of_all _ fun ω => ?_)
    rw [Real.norm_eq_abs, abs_of_pos (Real.exp_pos _), Real.exp_le_one_iff]
    nlinarith [sq_nonneg (X ω)]
  refine ⟨hint, ?_⟩
  have hle : ∫ ω, Real.exp (-t * X ω ^ 2) ∂P ≤ ∫ ω, (1 - t * X ω ^ 2 + t ^ 2 / 2 * X ω ^ 4) ∂P := by
    refine integral_mono hint (((integrable_const _).sub (i2.const_mul t)).add (i4.const_mul _)) fun ω => ?_
    have := exp_neg_le (t * X ω ^ 2) (by positivity)
    simp only []
    rw [neg_mul]
    refine this.trans (le_of_eq ?_)
    ring
  have j2 : Integrable (fun ω => 1 - t * X ω ^ 2) P := (integrable_const _).sub (i2.const_mul t)
  rw [integral_add j2 (i4.const_mul _), integral_sub (integrable_const _) (i2.const_mul t), integral_const_mul,
    integral_const_mul, hv] at hle
  simp at hle
  have h5 := Real.add_one_le_exp (-t + 2 * t ^ 2)
  have h6 : t ^ 2 / 2 * ∫ ω, X ω ^ 4 ∂P ≤ t ^ 2 / 2 * 4 := mul_le_mul_of_nonneg_left h4 (by positivity)
  simp only [mgf]
  simp only [neg_mul]
  linarith

/-- Moment generating function of a sum, each term independent of the sum of the terms before it. -/
lemma mgf_steps {p : ℕ} (Y : Fin p → Ω → ℝ) (hi : ∀ (s : Finset (Fin p)) (i : Fin p), i ∉ s → IndepFun (Y i) (∑ j ∈ s, Y j) P)
    (t : ℝ) (hint : ∀ j, Integrable (fun ω => Real.exp (t * Y j ω)) P) (s : Finset (Fin p)) :
    Integrable (fun ω => Real.exp (t * (∑ j ∈ s, Y j) ω)) P ∧ mgf (∑ j ∈ s, Y j) P t = ∏ j ∈ s, mgf (Y j) P t := by
  classical
  induction s using Finset.induction_on with
  | empty => simp
  | insert i s hi' ih =>
    rw [sum_insert hi', prod_insert hi']
    refine ⟨(hi s i hi').integrable_exp_mul_add (hint i) ih.1, ?_⟩
    rw [(hi s i hi').mgf_add (hint i).1 ih.1.1, ih.2]

/-- Sums of squares of independent sub-Gaussian variables of variance one. -/
lemma squares_tail {p : ℕ} (X : Fin p → Ω → ℝ) (hm : ∀ j, Measurable (X j)) 
    (hi : ∀ (s : Finset (Fin p)) (i : Fin p), i ∉ s → IndepFun (fun ω => X i ω ^ 2) (∑ j ∈ s, fun ω => X j ω ^ 2) P) (hX : ∀ j, HasSubgaussianMGF (X j) 1 P)
    (hv : ∀ j, ∫ ω, X j ω ^ 2 ∂P = 1) {ε : ℝ} (h0 : 0 < ε) (h1 : ε ≤ 1) :
    P.real {ω | ε * p < |(∑ j, X j ω ^ 2) - p|} ≤ 2 * Real.exp (-(p * ε ^ 2 / 8)) := by
  have hm2 : ∀ j, Measurable fun ω => X j ω ^ 2 := fun j => (hm j).pow_const 2
  have hsum : ∀ ω, (∑ j, fun ω => X j ω ^ 2) ω = ∑ j, X j ω ^ 2 := fun ω => by simp
  have hup : P.real {ω | (1 + ε) * p ≤ (∑ j, fun ω => X j ω ^ 2) ω} ≤ Real.exp (-(p * ε ^ 2 / 8)) := by
    have hms := mgf_steps _ hi (ε / 4) (fun j => (sub_sq (hm j) (hX j) (by positivity) (by linarith)).1) univ
    refine (measure_ge_le_exp_mul_mgf (t := ε / 4) _ (by positivity) hms.1).trans ?_
    rw [hms.2]
    have hp : ∏ j : Fin p, mgf (fun ω => X j ω ^ 2) P (ε / 4) ≤ ∏ _j : Fin p, Real.exp (ε / 4 + 2 * (ε / 4) ^ 2) :=
      prod_le_prod (fun j _ => mgf_nonneg) fun j _ => (sub_sq (hm j) (hX j) (by positivity) (by linarith)).2
    refine (mul_le_mul_of_nonneg_left hp (Real.exp_pos _).le).trans (le_of_eq ?_)
    rw [prod_const, card_univ, Fintype.card_fin, ← Real.exp_nat_mul, ← Real.exp_add]
    congr 1
    ring
  have hlo : P.real {ω | (∑ j, fun ω => X j ω ^ 2) ω ≤ (1 - ε) * p} ≤ Real.exp (-(p * ε ^ 2 / 8)) := by
    have hms := mgf_steps _ hi (-(ε / 4)) (fun j => (sub_low (hm j) (hX j) (hv j) (by positivity)).1) univ
    refine (measure_le_le_exp_mul_mgf (t := -(ε / 4)) _ (by linarith) hms.1).trans ?_
    rw [hms.2]
    have hp : ∏ j : Fin p, mgf (fun ω => X j ω ^ 2) P (-(ε / 4)) ≤ ∏ _j : Fin p, Real.exp (-(ε / 4) + 2 * (ε / 4) ^ 2) :=
      prod_le_prod (fun j _ => mgf_nonneg) fun j _ => (sub_low (hm j) (hX j) (hv j) (by positivity)).2
    refine (mul_le_mul_of_nonneg_left hp (Real.exp_pos _).le).trans (le_of_eq ?_)
    rw [prod_const, card_univ, Fintype.card_fin, ← Real.exp_nat_mul, ← Real.exp_add]
    congr 1
    ring
  have hsub : {ω | ε * p < |(∑ j, X j ω ^ 2) - p|} ⊆ {ω | (1 + ε) * p ≤ (∑ j, fun ω => X j ω ^ 2) ω} ∪ {ω | (∑ j, fun ω => X j ω ^ 2) ω ≤ (1 - ε) * p} := by
    intro ω hω
    have hω : ε * p < |(∑ j, X j ω ^ 2) - p| := hω
    rw [lt_abs] at hω
    rcases hω with h | h
    · left
      show (1 + ε) * p ≤ (∑ j, fun ω => X j ω ^ 2) ω
      rw [hsum]
      linarith
    · right
      show (∑ j, fun ω => X j ω ^ 2) ω ≤ (1 - ε) * p
      rw [hsum]
      linarith
  refine (measureReal_mono hsub).trans ((measureReal_union_le _ _).trans ?_)
  linarith

/-! ### Random matrices -/

variable {d p : ℕ}

/-- Independent, centred, sub-Gaussian entries of variance one. -/
structure Entries (ξ : Fin d × Fin p → Ω → ℝ) (P : Measure Ω) : Prop where
  indep : iIndepFun ξ P
  meas : ∀ q, Measurable (ξ q)
  sub : ∀ q, HasSubgaussianMGF (ξ q) 1 P
  mean : ∀ q, ∫ ω, ξ q ω ∂P = 0
  sq : ∀ q, ∫ ω, ξ q ω ^ 2 ∂P = 1

/-- The form of column `j`. -/
noncomputable def colForm (ξ : Fin d × Fin p → Ω → ℝ) (z : Fin d → ℝ) (j : Fin p) (ω : Ω) : ℝ := ∑ a, z a * ξ (a, j) ω

omit [IsProbabilityMeasure P] in
lemma colForm_meas {ξ : Fin d × Fin p → Ω → ℝ} (h : Entries ξ P) (z : Fin d → ℝ) (j : Fin p) : Measurable (colForm ξ z j) := by
  unfold colForm
  exact Finset.measurable_fun_sum _ fun a _ => (h.meas _).const_mul _

omit [IsProbabilityMeasure P] in
lemma colForm_sub {ξ : Fin d × Fin p → Ω → ℝ} (h : Entries ξ P) (z : Fin d → ℝ) (hz : ∑ a, z a ^ 2 = 1) (j : Fin p) :
    HasSubgaussianMGF (colForm ξ z j) 1 P := by
  have hi : iIndepFun (fun a ω => z a * ξ (a, j) ω) P :=
    (h.indep.precomp (g := fun a : Fin d => (a, j)) fun a b hab => (Prod.mk.inj hab).1).comp (fun a x => z a * x) fun a => by fun_prop
  have hs := HasSubgaussianMGF.sum_of_iIndepFun hi (s := univ) fun a _ => (h.sub (a, j)).const_mul (z a)
  refine ⟨hs.integrable_exp_mul, fun t => (hs.mgf_le t).trans (le_of_eq ?_)⟩
  congr 3
  rw [NNReal.coe_sum, NNReal.coe_one, ← hz]
  refine sum_congr rfl fun a _ => ?_
  exact mul_one (z a ^ 2)

omit [IsProbabilityMeasure P] in
lemma colForm_sq {ξ : Fin d × Fin p → Ω → ℝ} (h : Entries ξ P) (z : Fin d → ℝ) (hz : ∑ a, z a ^ 2 = 1) (j : Fin p) :
    ∫ ω, colForm ξ z j ω ^ 2 ∂P = 1 := by
  have h2 : ∀ a, MemLp (ξ (a, j)) 2 P := fun a => (h.sub (a, j)).memLp 2
  have hprod : ∀ a b, Integrable (fun ω => z a * ξ (a, j) ω * (z b * ξ (b, j) ω)) P := by
    intro a b
    have : Integrable (fun ω => ξ (a, j) ω * ξ (b, j) ω) P := (h2 a).integrable_mul (h2 b)
    refine (this.const_mul (z a * z b)).congr (ae_of_all _ fun ω => ?_)
    simp only []
    ring
  have hval : ∀ a b, ∫ ω, z a * ξ (a, j) ω * (z b * ξ (b, j) ω) ∂P = if a = b then z a ^ 2 else 0 := by
    intro a b
    have e : (fun ω => z a * ξ (a, j) ω * (z b * ξ (b, j) ω)) = fun ω => z a * z b * (ξ (a, j) ω * ξ (b, j) ω) := by
      funext ω
      ring
    rw [e, integral_const_mul]
    by_cases hab : a = b
    · subst hab
      rw [if_pos rfl]
      have : ∀ ω, ξ (a, j) ω * ξ (a, j) ω = ξ (a, j) ω ^ 2 := fun ω => (pow_two _).symm
      simp only [this, h.sq]
      ring
    · rw [if_neg hab]
      have hi : IndepFun (ξ (a, j)) (ξ (b, j)) P := h.indep.indepFun fun he => hab (Prod.mk.inj he).1
      rw [show ∫ ω, ξ (a, j) ω * ξ (b, j) ω ∂P = (∫ ω, ξ (a, j) ω ∂P) * ∫ ω, ξ (b, j) ω ∂P from
        hi.integral_mul_eq_mul_integral (h.meas _).aestronglyMeasurable (h.meas _).aestronglyMeasurable, h.mean, zero_mul, mul_zero]
  have hfun : (fun ω => colForm ξ z j ω ^ 2) = fun ω => ∑ a, ∑ b, z a * ξ (a, j) ω * (z b * ξ (b, j) ω) := by
    funext ω
    rw [colForm, pow_two, sum_mul_sum]
  rw [hfun, integral_finsetSum _ fun a _ => integrable_finsetSum _ fun b _ => hprod a b]
  rw [← hz]
  refine sum_congr rfl fun a _ => ?_
  rw [integral_finsetSum _ fun b _ => hprod a b]
  simp only [hval, sum_ite_eq, mem_univ, if_true]

omit [IsProbabilityMeasure P] in
/-- Functions of disjoint groups of independent variables are independent. -/
lemma indep_groups {ι : Type} [Fintype ι] [DecidableEq ι] (ξ : ι → Ω → ℝ) (hi : iIndepFun ξ P) (hm : ∀ i, Measurable (ξ i)) (S : ι → Prop)
    (f g : (ι → ℝ) → ℝ) (hf : Measurable f) (hg : Measurable g)
    (hfS : ∀ G G' : ι → ℝ, (∀ i, S i → G i = G' i) → f G = f G') (hgS : ∀ G G' : ι → ℝ, (∀ i, ¬ S i → G i = G' i) → g G = g G') :
    IndepFun (fun ω => f fun i => ξ i ω) (fun ω => g fun i => ξ i ω) P := by
  classical
  have h2 := hi.indepFun_finset (univ.filter S) (univ.filter fun i => ¬ S i) (disjoint_filter_filter_not _ _ _) hm
  have ext : ∀ (T : Finset ι), Measurable fun (w : T → ℝ) (i : ι) => if h : i ∈ T then w ⟨i, h⟩ else (0 : ℝ) := by
    intro T
    refine measurable_pi_lambda _ fun i => ?_
    by_cases hi : i ∈ T
    · simp only [hi, dif_pos]
      exact measurable_pi_apply _
    · simp only [hi]
      exact measurable_const
  have h3 := h2.comp (hf.comp (ext _)) (hg.comp (ext _))
  have e : ∀ (T : Finset ι) (φ : (ι → ℝ) → ℝ), (∀ G G' : ι → ℝ, (∀ i ∈ T, G i = G' i) → φ G = φ G') →
      (φ ∘ fun (w : T → ℝ) (i : ι) => if h : i ∈ T then w ⟨i, h⟩ else (0 : ℝ)) ∘ (fun (ω : Ω) (i : T) => ξ i ω) = fun ω => φ fun i => ξ i ω := by
    intro T φ hφ
    funext ω
    refine hφ _ _ fun i hi => ?_
    simp [hi]
  rwa [e _ f fun G G' h => hfS _ _ fun i hi => h i (by simpa using hi), e _ g fun G G' h => hgS _ _ fun i hi => h i (by simpa using hi)] at h3

omit [IsProbabilityMeasure P] in
lemma colForm_indep {ξ : Fin d × Fin p → Ω → ℝ} (h : Entries ξ P) (z : Fin d → ℝ) (s : Finset (Fin p)) (i : Fin p) (hi : i ∉ s) :
    IndepFun (fun ω => colForm ξ z i ω ^ 2) (∑ j ∈ s, fun ω => colForm ξ z j ω ^ 2) P := by
  have h1 := indep_groups ξ h.indep h.meas (fun q => q.2 = i) (fun G => (∑ a, z a * G (a, i)) ^ 2) (fun G => ∑ j ∈ s, (∑ a, z a * G (a, j)) ^ 2)
    (by fun_prop) (by fun_prop) (fun G G' hG => by
      have : ∀ a, G (a, i) = G' (a, i) := fun a => hG _ rfl
      simp only [this]) (fun G G' hG => by
      refine sum_congr rfl fun j hj => ?_
      have : ∀ a, G (a, j) = G' (a, j) := fun a => hG _ fun he => hi (he ▸ hj)
      simp only [this])
  have e : (∑ j ∈ s, fun ω => colForm ξ z j ω ^ 2) = fun ω => ∑ j ∈ s, (∑ a, z a * ξ (a, j) ω) ^ 2 := by
    funext ω
    rw [Finset.sum_apply]
    rfl
  rw [e]
  exact h1

lemma form_tail {ξ : Fin d × Fin p → Ω → ℝ} (h : Entries ξ P) (z : Fin d → ℝ) {ε : ℝ} (h0 : 0 < ε) (h1 : ε ≤ 1) :
    P.real {ω | ε * (p * ∑ a, z a ^ 2) < |(∑ j, colForm ξ z j ω ^ 2) - p * ∑ a, z a ^ 2|} ≤ 2 * Real.exp (-(p * ε ^ 2 / 8)) := by
  set N := ∑ a, z a ^ 2 with hN
  have hN0 : 0 ≤ N := sum_nonneg fun a _ => sq_nonneg _
  rcases hN0.eq_or_lt with hz | hpos
  · have hza : ∀ a, z a = 0 := fun a => by
      have := (sum_eq_zero_iff_of_nonneg (fun a _ => sq_nonneg (z a))).1 (hN.symm.trans hz.symm) a (mem_univ a)
      exact pow_eq_zero_iff (two_ne_zero) |>.1 this
    have : {ω | ε * (p * N) < |(∑ j, colForm ξ z j ω ^ 2) - p * N|} = ∅ := by
      ext ω
      simp [colForm, hza, ← hz]
    rw [this]
    simp
    positivity
  · set r := Real.sqrt N with hr
    have hr2 : r ^ 2 = N := Real.sq_sqrt hN0
    have hrpos : 0 < r := Real.sqrt_pos.2 hpos
    have hu : ∑ a, (z a / r) ^ 2 = 1 := by
      simp only [div_pow, hr2]
      rw [← sum_div, ← hN, div_self hpos.ne']
    have ht := squares_tail (fun j => colForm ξ (fun a => z a / r) j) (fun j => colForm_meas h _ j) (colForm_indep h _) (fun j => colForm_sub h _ hu j)
      (fun j => colForm_sq h _ hu j) h0 h1
    refine le_trans (le_of_eq ?_) ht
    congr 1
    ext ω
    have hf : ∀ j, colForm ξ z j ω ^ 2 = N * colForm ξ (fun a => z a / r) j ω ^ 2 := by
      intro j
      have : colForm ξ z j ω = r * colForm ξ (fun a => z a / r) j ω := by
        rw [colForm, colForm, mul_sum]
        refine sum_congr rfl fun a _ => ?_
        field_simp
      rw [this, mul_pow, hr2]
    simp only [Set.mem_ofPred_eq, hf]
    rw [← mul_sum, show N * (∑ j, colForm ξ (fun a => z a / r) j ω ^ 2) - p * N = N * ((∑ j, colForm ξ (fun a => z a / r) j ω ^ 2) - p) by ring, abs_mul,
      abs_of_pos hpos, show ε * (p * N) = N * (ε * p) by ring, mul_lt_mul_iff_right₀ hpos]

/-- Inner products of the forms of two vectors. -/
lemma inner_tail {ξ : Fin d × Fin p → Ω → ℝ} (h : Entries ξ P) (x y : Fin d → ℝ) {ε : ℝ} (h0 : 0 < ε) (h1 : ε ≤ 1) :
    P.real {ω | ε * (p * (Real.sqrt (∑ a, x a ^ 2) * Real.sqrt (∑ a, y a ^ 2))) < |(∑ j, colForm ξ x j ω * colForm ξ y j ω) - p * ∑ a, x a * y a|} ≤
      4 * Real.exp (-(p * ε ^ 2 / 8)) := by
  set r := Real.sqrt (∑ a, x a ^ 2) with hr
  set s := Real.sqrt (∑ a, y a ^ 2) with hs
  have hr2 : r ^ 2 = ∑ a, x a ^ 2 := Real.sq_sqrt (sum_nonneg fun a _ => sq_nonneg _)
  have hs2 : s ^ 2 = ∑ a, y a ^ 2 := Real.sq_sqrt (sum_nonneg fun a _ => sq_nonneg _)
  have hr0 : 0 ≤ r := Real.sqrt_nonneg _
  have hs0 : 0 ≤ s := Real.sqrt_nonneg _
  have hzero : ∀ (z : Fin d → ℝ), ∑ a, z a ^ 2 = 0 → ∀ a, z a = 0 := fun z hz a => by
    have := (sum_eq_zero_iff_of_nonneg (fun a _ => sq_nonneg (z a))).1 hz a (mem_univ a)
    exact pow_eq_zero_iff (two_ne_zero) |>.1 this
  rcases hr0.eq_or_lt with hz | hrpos
  · have hx := hzero x (by rw [← hr2, ← hz]; norm_num)
    have : {ω | ε * (p * (r * s)) < |(∑ j, colForm ξ x j ω * colForm ξ y j ω) - p * ∑ a, x a * y a|} = ∅ := by
      ext ω
      simp [colForm, hx, ← hz]
    rw [this]
    simp
    positivity
  rcases hs0.eq_or_lt with hz | hspos
  · have hy := hzero y (by rw [← hs2, ← hz]; norm_num)
    have : {ω | ε * (p * (r * s)) < |(∑ j, colForm ξ x j ω * colForm ξ y j ω) - p * ∑ a, x a * y a|} = ∅ := by
      ext ω
      simp [colForm, hy, ← hz]
    rw [this]
    simp
    positivity
  set u : Fin d → ℝ := fun a => x a / r + y a / s with hu
  set v : Fin d → ℝ := fun a => x a / r - y a / s with hv
  set c : ℝ := ∑ a, x a * y a with hc
  have hU : ∑ a, u a ^ 2 = 2 + 2 * (c / (r * s)) := by
    have : ∀ a, u a ^ 2 = x a ^ 2 / r ^ 2 + y a ^ 2 / s ^ 2 + 2 * (x a * y a / (r * s)) := fun a => by
      simp only [hu]
      field_simp
      ring
    simp only [this, sum_add_distrib, ← mul_sum, ← sum_div]
    rw [← hr2, ← hs2, ← hc]
    field_simp
    ring
  have hV : ∑ a, v a ^ 2 = 2 - 2 * (c / (r * s)) := by
    have : ∀ a, v a ^ 2 = x a ^ 2 / r ^ 2 + y a ^ 2 / s ^ 2 - 2 * (x a * y a / (r * s)) := fun a => by
      simp only [hv]
      field_simp
      ring
    simp only [this, sum_add_distrib, sum_sub_distrib, ← mul_sum, ← sum_div]
    rw [← hr2, ← hs2, ← hc]
    field_simp
    ring
  have t1 := form_tail h u h0 h1
  have t2 := form_tail h v h0 h1
  have hsub : {ω | ε * (p * (r * s)) < |(∑ j, colForm ξ x j ω * colForm ξ y j ω) - p * c|} ⊆
      {ω | ε * (p * ∑ a, u a ^ 2) < |(∑ j, colForm ξ u j ω ^ 2) - p * ∑ a, u a ^ 2|} ∪
      {ω | ε * (p * ∑ a, v a ^ 2) < |(∑ j, colForm ξ v j ω ^ 2) - p * ∑ a, v a ^ 2|} := by
    intro ω hω
    have hω : ε * (p * (r * s)) < |(∑ j, colForm ξ x j ω * colForm ξ y j ω) - p * c| := hω
    by_contra hn
    rw [Set.mem_union, not_or] at hn
    have n1 : |(∑ j, colForm ξ u j ω ^ 2) - p * ∑ a, u a ^ 2| ≤ ε * (p * ∑ a, u a ^ 2) := not_lt.1 hn.1
    have n2 : |(∑ j, colForm ξ v j ω ^ 2) - p * ∑ a, v a ^ 2| ≤ ε * (p * ∑ a, v a ^ 2) := not_lt.1 hn.2
    have hpol : ∀ j, colForm ξ u j ω ^ 2 - colForm ξ v j ω ^ 2 = 4 / (r * s) * (colForm ξ x j ω * colForm ξ y j ω) := by
      intro j
      have e1 : colForm ξ u j ω = colForm ξ x j ω / r + colForm ξ y j ω / s := by
        simp only [colForm, hu, sum_div, ← sum_add_distrib]
        exact sum_congr rfl fun a _ => by ring
      have e2 : colForm ξ v j ω = colForm ξ x j ω / r - colForm ξ y j ω / s := by
        simp only [colForm, hv, sum_div, ← sum_sub_distrib]
        exact sum_congr rfl fun a _ => by ring
      rw [e1, e2]
      field_simp
      ring
    have hsum : (∑ j, colForm ξ u j ω ^ 2) - (∑ j, colForm ξ v j ω ^ 2) = 4 / (r * s) * ∑ j, colForm ξ x j ω * colForm ξ y j ω := by
      rw [← sum_sub_distrib, mul_sum]
      exact sum_congr rfl fun j _ => hpol j
    rw [hU] at n1
    rw [hV] at n2
    have hkey : 4 / (r * s) * ((∑ j, colForm ξ x j ω * colForm ξ y j ω) - p * c) =
        ((∑ j, colForm ξ u j ω ^ 2) - p * (2 + 2 * (c / (r * s)))) - ((∑ j, colForm ξ v j ω ^ 2) - p * (2 - 2 * (c / (r * s)))) := by
      rw [mul_sub, ← hsum]
      ring
    have habs : |4 / (r * s) * ((∑ j, colForm ξ x j ω * colForm ξ y j ω) - p * c)| ≤ ε * (p * 4) := by
      rw [hkey]
      refine (abs_sub _ _).trans ((add_le_add n1 n2).trans (le_of_eq ?_))
      ring
    rw [abs_mul, abs_of_pos (by positivity : (0 : ℝ) < 4 / (r * s)), div_mul_eq_mul_div, div_le_iff₀ (by positivity)] at habs
    linarith
  refine (measureReal_mono hsub).trans ((measureReal_union_le _ _).trans ?_)
  linarith

end Verif.Projection
