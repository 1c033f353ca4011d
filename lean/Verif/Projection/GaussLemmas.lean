import Mathlib.Probability.Distributions.Gaussian.Real
import Mathlib.Probability.Moments.MGFAnalytic
import Mathlib.MeasureTheory.Integral.Pi
import Mathlib.Tactic.FieldSimp
import Mathlib.Tactic.Ring
import Mathlib.Tactic.LinearCombination

/-!
# Moments of linear forms of independent standard normal variables
-/

namespace Verif.Projection

open MeasureTheory ProbabilityTheory Finset

variable {ι : Type} [Fintype ι]

/-- The law of independent standard normal variables. -/
noncomputable def gauss (ι : Type) [Fintype ι] : Measure (ι → ℝ) := Measure.pi fun _ => gaussianReal 0 1

instance : IsProbabilityMeasure (gauss ι) := by unfold gauss; infer_instance

/-- The linear form with coefficients `c`. -/
noncomputable def lin (c : ι → ℝ) (G : ι → ℝ) : ℝ := ∑ i, c i * G i

lemma lin_add (c e : ι → ℝ) (G : ι → ℝ) : lin (c + e) G = lin c G + lin e G := by
  simp [lin, add_mul, sum_add_distrib]

lemma lin_sub (c e : ι → ℝ) (G : ι → ℝ) : lin (c - e) G = lin c G - lin e G := by
  simp [lin, sub_mul, sum_sub_distrib]

lemma integrable_exp_lin (c : ι → ℝ) (t : ℝ) : Integrable (fun G => Real.exp (t * lin c G)) (gauss ι) := by
  have h : (fun G : ι → ℝ => Real.exp (t * lin c G)) = fun G => ∏ i, Real.exp ((t * c i) * G i) := by
    funext G
    rw [← Real.exp_sum, lin, mul_sum]
    simp only [mul_assoc]
  rw [h]
  exact Integrable.fintype_prod (f := fun i (x : ℝ) => Real.exp ((t * c i) * x)) fun i => integrable_exp_mul_gaussianReal (t * c i)

lemma mem_interior_lin (c : ι → ℝ) : (0 : ℝ) ∈ interior (integrableExpSet (lin c) (gauss ι)) := by
  have : integrableExpSet (lin c) (gauss ι) = Set.univ := by
    ext t
    simpa [integrableExpSet] using integrable_exp_lin c t
  rw [this, interior_univ]
  trivial

lemma mgf_lin (c : ι → ℝ) : mgf (lin c) (gauss ι) = fun t => Real.exp ((∑ i, c i ^ 2) * t ^ 2 / 2) := by
  funext t
  have h : (fun G : ι → ℝ => Real.exp (t * lin c G)) = fun G => ∏ i, Real.exp ((t * c i) * G i) := by
    funext G
    rw [← Real.exp_sum, lin, mul_sum]
    simp only [mul_assoc]
  rw [mgf, h, gauss, integral_fintype_prod_eq_prod (f := fun i (x : ℝ) => Real.exp ((t * c i) * x))]
  have h1 : ∀ i, ∫ x, Real.exp ((t * c i) * x) ∂(gaussianReal 0 1) = Real.exp ((t * c i) ^ 2 / 2) := by
    intro i
    have := congrFun (mgf_id_gaussianReal (μ := 0) (v := 1)) (t * c i)
    simpa [mgf] using this
  simp only [h1]
  rw [← Real.exp_sum]
  congr 1
  rw [sum_mul, sum_div]
  refine sum_congr rfl fun i _ => ?_
  ring

lemma hasDerivAt_bell (s : ℝ) (q q' : ℝ → ℝ) (hq : ∀ t, HasDerivAt q (q' t) t) (t : ℝ) :
    HasDerivAt (fun t => q t * Real.exp (s * t ^ 2 / 2)) ((q' t + q t * (s * t)) * Real.exp (s * t ^ 2 / 2)) t := by
  have h1 : HasDerivAt (fun t : ℝ => s * t ^ 2 / 2) (s * t) t := by
    refine (((hasDerivAt_pow 2 t).const_mul s).div_const 2).congr_deriv ?_
    push_cast
    ring
  exact ((hq t).mul h1.exp).congr_deriv (by ring)

lemma iteratedDeriv_bell (s : ℝ) :
    iteratedDeriv 2 (fun t : ℝ => Real.exp (s * t ^ 2 / 2)) 0 = s ∧ iteratedDeriv 4 (fun t : ℝ => Real.exp (s * t ^ 2 / 2)) 0 = 3 * s ^ 2 := by
  have hx : ∀ t : ℝ, HasDerivAt (fun t : ℝ => t) 1 t := fun t => hasDerivAt_id t
  have d1 : deriv (fun t : ℝ => Real.exp (s * t ^ 2 / 2)) = fun t => (s * t) * Real.exp (s * t ^ 2 / 2) := by
    funext t
    have := (hasDerivAt_bell s (fun _ => 1) (fun _ => 0) (fun t => hasDerivAt_const t 1) t).deriv
    simpa using this
  have d2 : deriv (fun t : ℝ => (s * t) * Real.exp (s * t ^ 2 / 2)) = fun t => (s + s ^ 2 * t ^ 2) * Real.exp (s * t ^ 2 / 2) := by
    funext t
    rw [(hasDerivAt_bell s (fun t => s * t) (fun _ => s) (fun t => by simpa using (hx t).const_mul s) t).deriv]
    ring
  have d3 : deriv (fun t : ℝ => (s + s ^ 2 * t ^ 2) * Real.exp (s * t ^ 2 / 2)) =
      fun t => (3 * s ^ 2 * t + s ^ 3 * t ^ 3) * Real.exp (s * t ^ 2 / 2) := by
    funext t
    rw [(hasDerivAt_bell s (fun t => s + s ^ 2 * t ^ 2) (fun t => s ^ 2 * (2 * t)) (fun t => by
      simpa using ((hasDerivAt_pow 2 t).const_mul (s ^ 2)).const_add s) t).deriv]
    ring
  have d4 : deriv (fun t : ℝ => (3 * s ^ 2 * t + s ^ 3 * t ^ 3) * Real.exp (s * t ^ 2 / 2)) =
      fun t => (3 * s ^ 2 + s ^ 3 * (3 * t ^ 2) + (3 * s ^ 2 * t + s ^ 3 * t ^ 3) * (s * t)) * Real.exp (s * t ^ 2 / 2) := by
    funext t
    rw [(hasDerivAt_bell s (fun t => 3 * s ^ 2 * t + s ^ 3 * t ^ 3) (fun t => 3 * s ^ 2 + s ^ 3 * (3 * t ^ 2)) (fun t => by
      have h1 := ((hx t).const_mul (3 * s ^ 2)).fun_add ((hasDerivAt_pow 3 t).const_mul (s ^ 3))
      simpa using h1) t).deriv]
  constructor
  · rw [iteratedDeriv_succ, iteratedDeriv_one, d1, d2]
    simp
  · rw [iteratedDeriv_succ, iteratedDeriv_succ, iteratedDeriv_succ, iteratedDeriv_one, d1, d2, d3, d4]
    simp

lemma integrable_lin_pow (c : ι → ℝ) (n : ℕ) : Integrable (fun G => lin c G ^ n) (gauss ι) :=
  integrable_pow_of_mem_interior_integrableExpSet (mem_interior_lin c) n

lemma moment_two (c : ι → ℝ) : ∫ G, lin c G ^ 2 ∂(gauss ι) = ∑ i, c i ^ 2 := by
  have := iteratedDeriv_mgf_zero (mem_interior_lin c) 2
  rw [mgf_lin, (iteratedDeriv_bell _).1] at this
  exact this.symm

lemma moment_four (c : ι → ℝ) : ∫ G, lin c G ^ 4 ∂(gauss ι) = 3 * (∑ i, c i ^ 2) ^ 2 := by
  have := iteratedDeriv_mgf_zero (mem_interior_lin c) 4
  rw [mgf_lin, (iteratedDeriv_bell _).2] at this
  exact this.symm

lemma sq_add' (c e : ι → ℝ) : ∑ i, (c + e) i ^ 2 = ∑ i, c i ^ 2 + 2 * ∑ i, c i * e i + ∑ i, e i ^ 2 := by
  rw [mul_sum, ← sum_add_distrib, ← sum_add_distrib]
  refine sum_congr rfl fun i _ => ?_
  simp only [Pi.add_apply]
  ring

lemma sq_sub' (c e : ι → ℝ) : ∑ i, (c - e) i ^ 2 = ∑ i, c i ^ 2 - 2 * ∑ i, c i * e i + ∑ i, e i ^ 2 := by
  rw [mul_sum, ← sum_sub_distrib, ← sum_add_distrib]
  refine sum_congr rfl fun i _ => ?_
  simp only [Pi.sub_apply]
  ring

lemma dot_add' (c e f : ι → ℝ) : ∑ i, (c + e) i * f i = ∑ i, c i * f i + ∑ i, e i * f i := by
  simp [add_mul, sum_add_distrib]

lemma dot_sub' (c e f : ι → ℝ) : ∑ i, (c - e) i * f i = ∑ i, c i * f i - ∑ i, e i * f i := by
  simp [sub_mul, sum_sub_distrib]

/-- The mixed second moment. -/
lemma gauss_two (c e : ι → ℝ) :
    Integrable (fun G => lin c G * lin e G) (gauss ι) ∧ ∫ G, lin c G * lin e G ∂(gauss ι) = ∑ i, c i * e i := by
  have h : (fun G => lin c G * lin e G) = fun G : ι → ℝ => (lin (c + e) G ^ 2 - lin (c - e) G ^ 2) / 4 := by
    funext G
    rw [lin_add, lin_sub]
    ring
  have h1 := integrable_lin_pow (c + e) 2
  have h2 := integrable_lin_pow (c - e) 2
  rw [h]
  refine ⟨(h1.sub h2).div_const 4, ?_⟩
  rw [integral_div, integral_sub h1 h2, moment_two, moment_two, sq_add', sq_sub']
  ring

lemma integrable_fun_sub {f g : (ι → ℝ) → ℝ} (hf : Integrable f (gauss ι)) (hg : Integrable g (gauss ι)) :
    Integrable (fun G => f G - g G) (gauss ι) := hf.sub hg

/-- The mixed fourth moment: the sum over the three pairings. -/
lemma gauss_four (a b c e : ι → ℝ) :
    Integrable (fun G => lin a G * lin b G * (lin c G * lin e G)) (gauss ι) ∧ ∫ G, lin a G * lin b G * (lin c G * lin e G) ∂(gauss ι) =
      (∑ i, a i * b i) * (∑ i, c i * e i) + (∑ i, a i * c i) * (∑ i, b i * e i) + (∑ i, a i * e i) * (∑ i, b i * c i) := by
  have h : (fun G => lin a G * lin b G * (lin c G * lin e G)) = fun G : ι → ℝ =>
      (lin (a + b + c + e) G ^ 4 - lin (a + b + c - e) G ^ 4 - lin (a + b - c + e) G ^ 4 + lin (a + b - c - e) G ^ 4
        - lin (a - b + c + e) G ^ 4 + lin (a - b + c - e) G ^ 4 + lin (a - b - c + e) G ^ 4 - lin (a - b - c - e) G ^ 4) / 192 := by
    funext G
    simp only [lin_add, lin_sub]
    ring
  have i1 := integrable_lin_pow (a + b + c + e) 4
  have i2 := integrable_lin_pow (a + b + c - e) 4
  have i3 := integrable_lin_pow (a + b - c + e) 4
  have i4 := integrable_lin_pow (a + b - c - e) 4
  have i5 := integrable_lin_pow (a - b + c + e) 4
  have i6 := integrable_lin_pow (a - b + c - e) 4
  have i7 := integrable_lin_pow (a - b - c + e) 4
  have i8 := integrable_lin_pow (a - b - c - e) 4
  have j2 := integrable_fun_sub i1 i2
  have j3 := integrable_fun_sub j2 i3
  have j4 := j3.fun_add i4
  have j5 := integrable_fun_sub j4 i5
  have j6 := j5.fun_add i6
  have j7 := j6.fun_add i7
  have j8 := integrable_fun_sub j7 i8
  rw [h]
  refine ⟨j8.div_const 192, ?_⟩
  rw [integral_div, integral_sub j7 i8, integral_add j6 i7, integral_add j5 i6, integral_sub j4 i5, integral_add j3 i4, integral_sub j2 i3,
    integral_sub i1 i2]
  simp only [moment_four, sq_add', sq_sub', dot_add', dot_sub']
  ring

lemma gauss_coord {ι : Type} [Fintype ι] [DecidableEq ι] (a b c e : ι) :
    Integrable (fun G : ι → ℝ => G a * G b * (G c * G e)) (gauss ι) ∧ ∫ G : ι → ℝ, G a * G b * (G c * G e) ∂(gauss ι) =
      (if a = b then 1 else 0) * (if c = e then 1 else 0) + (if a = c then 1 else 0) * (if b = e then 1 else 0) +
        (if a = e then 1 else 0) * (if b = c then 1 else 0) := by
  have hl : ∀ (x : ι) (G : ι → ℝ), lin (Pi.single x 1) G = G x := by
    intro x G
    simp [lin, Pi.single_apply]
  have hd : ∀ x y : ι, ∑ i, (Pi.single x 1 : ι → ℝ) i * (Pi.single y 1 : ι → ℝ) i = if x = y then 1 else 0 := by
    intro x y
    simp [Pi.single_apply, eq_comm]
  have h := gauss_four (Pi.single a 1) (Pi.single b 1) (Pi.single c 1) (Pi.single e 1)
  simp only [hl, hd] at h
  exact h

/-- The mean of a product of two bilinear forms in the coordinates. -/
lemma mean_forms {ι : Type} [Fintype ι] [DecidableEq ι] {a b : ℕ} (p : Fin a → ι) (q : Fin b → ι) (X Y : Fin a → Fin b → ℝ) :
    Integrable (fun G : ι → ℝ => (∑ o, ∑ i, X o i * (G (p o) * G (q i))) * ∑ o, ∑ i, Y o i * (G (p o) * G (q i))) (gauss ι) ∧
    ∫ G : ι → ℝ, (∑ o, ∑ i, X o i * (G (p o) * G (q i))) * (∑ o, ∑ i, Y o i * (G (p o) * G (q i))) ∂(gauss ι) =
      ∑ o, ∑ i, ∑ o', ∑ i', X o i * Y o' i' * ((if p o = q i then 1 else 0) * (if p o' = q i' then 1 else 0) +
        (if p o = p o' then 1 else 0) * (if q i = q i' then 1 else 0) + (if p o = q i' then 1 else 0) * (if q i = p o' then 1 else 0)) := by
  have hfun : (fun G : ι → ℝ => (∑ o, ∑ i, X o i * (G (p o) * G (q i))) * ∑ o, ∑ i, Y o i * (G (p o) * G (q i))) = fun G =>
      ∑ o, ∑ i, ∑ o', ∑ i', X o i * Y o' i' * (G (p o) * G (q i) * (G (p o') * G (q i'))) := by
    funext G
    rw [sum_mul]
    refine sum_congr rfl fun o _ => ?_
    rw [sum_mul]
    refine sum_congr rfl fun i _ => ?_
    rw [mul_sum]
    refine sum_congr rfl fun o' _ => ?_
    rw [mul_sum]
    refine sum_congr rfl fun i' _ => ?_
    ring
  have h1 : ∀ o i o' i', Integrable (fun G : ι → ℝ => X o i * Y o' i' * (G (p o) * G (q i) * (G (p o') * G (q i')))) (gauss ι) :=
    fun o i o' i' => (gauss_coord (p o) (q i) (p o') (q i')).1.const_mul _
  have h2 : ∀ o i o', Integrable (fun G : ι → ℝ => ∑ i', X o i * Y o' i' * (G (p o) * G (q i) * (G (p o') * G (q i')))) (gauss ι) :=
    fun o i o' => integrable_finsetSum _ fun i' _ => h1 o i o' i'
  have h3 : ∀ o i, Integrable (fun G : ι → ℝ => ∑ o', ∑ i', X o i * Y o' i' * (G (p o) * G (q i) * (G (p o') * G (q i')))) (gauss ι) :=
    fun o i => integrable_finsetSum _ fun o' _ => h2 o i o'
  have h4 : ∀ o, Integrable (fun G : ι → ℝ => ∑ i, ∑ o', ∑ i', X o i * Y o' i' * (G (p o) * G (q i) * (G (p o') * G (q i')))) (gauss ι) :=
    fun o => integrable_finsetSum _ fun i _ => h3 o i
  rw [hfun]
  refine ⟨integrable_finsetSum _ fun o _ => h4 o, ?_⟩
  rw [integral_finsetSum _ fun o _ => h4 o]
  refine sum_congr rfl fun o _ => ?_
  rw [integral_finsetSum _ fun i _ => h3 o i]
  refine sum_congr rfl fun i _ => ?_
  rw [integral_finsetSum _ fun o' _ => h2 o i o']
  refine sum_congr rfl fun o' _ => ?_
  rw [integral_finsetSum _ fun i' _ => h1 o i o' i']
  refine sum_congr rfl fun i' _ => ?_
  rw [integral_const_mul, (gauss_coord _ _ _ _).2]

end Verif.Projection
