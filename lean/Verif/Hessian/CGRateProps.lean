import Verif.Hessian.CGProps
import Mathlib.Analysis.Matrix.Spectrum
import Mathlib.Analysis.SpecialFunctions.Trigonometric.Chebyshev.RootsExtrema
import Mathlib.Algebra.Polynomial.AlgebraMap
import Mathlib.Algebra.Polynomial.Degree.Lemmas

/-! # C156: how fast conjugate gradient converges -/

namespace Verif.Hessian

open Matrix Polynomial

variable {n : ℕ}

/-! ### Specification -/

/-- `u · A u`. -/
noncomputable def energy (A : Matrix (Fin n) (Fin n) ℝ) (u : Fin n → ℝ) : ℝ := u ⬝ᵥ A *ᵥ u

/-! ### Krylov spaces -/

/-- The directions of the first `m` iterations. -/
noncomputable def dirs (A : Matrix (Fin n) (Fin n) ℝ) (v : Fin n → ℝ) (m : ℕ) : Submodule ℝ (Fin n → ℝ) :=
  Submodule.span ℝ {u | ∃ i < m, u = (cgT A v i).d}

lemma dirs_mono (A : Matrix (Fin n) (Fin n) ℝ) (v : Fin n → ℝ) {a b : ℕ} (h : a ≤ b) : dirs A v a ≤ dirs A v b :=
  Submodule.span_mono fun _ ⟨i, hi, e⟩ => ⟨i, by omega, e⟩

lemma d_mem (A : Matrix (Fin n) (Fin n) ℝ) (v : Fin n → ℝ) {i m : ℕ} (h : i < m) : (cgT A v i).d ∈ dirs A v m :=
  Submodule.subset_span ⟨i, h, rfl⟩

lemma g_mem (A : Matrix (Fin n) (Fin n) ℝ) (v : Fin n → ℝ) {i m : ℕ} (h : i < m) : (cgT A v i).g ∈ dirs A v m := by
  cases i with
  | zero => exact d_mem A v h
  | succ i =>
    have e : (cgT A v (i + 1)).g = (cgT A v (i + 1)).d - (((cgT A v (i + 1)).g ⬝ᵥ (cgT A v (i + 1)).g) / ((cgT A v i).g ⬝ᵥ (cgT A v i).g)) • (cgT A v i).d :=
      eq_sub_of_add_eq rfl
    rw [e]
    exact Submodule.sub_mem _ (d_mem A v h) (Submodule.smul_mem _ _ (d_mem A v (by omega)))

lemma x_mem (A : Matrix (Fin n) (Fin n) ℝ) (v : Fin n → ℝ) (m : ℕ) : (cgT A v m).x - v ∈ dirs A v m := by
  induction m with
  | zero =>
    have : (cgT A v 0).x - v = 0 := sub_self _
    rw [this]
    exact Submodule.zero_mem _
  | succ m ih =>
    have e : (cgT A v (m + 1)).x - v = ((cgT A v m).x - v) + (((cgT A v m).g ⬝ᵥ (cgT A v m).g) / ((cgT A v m).d ⬝ᵥ A *ᵥ (cgT A v m).d)) • (cgT A v m).d := by
      show (cgT A v m).x + _ - v = _
      abel
    rw [e]
    exact Submodule.add_mem _ (dirs_mono A v (by omega) ih) (Submodule.smul_mem _ _ (d_mem A v (by omega)))

variable {A : Matrix (Fin n) (Fin n) ℝ}

lemma Ad_mem (hA : SPD A) (v : Fin n → ℝ) (m : ℕ) (hne : ∀ j < m, (cgT A v j).g ≠ 0) {i : ℕ} (hi : i < m) :
    A *ᵥ (cgT A v i).d ∈ dirs A v (i + 2) := by
  have I := inv_all hA v m hne i hi.le
  have gg : (cgT A v i).g ⬝ᵥ (cgT A v i).g ≠ 0 := fun h => hne i hi (dotProduct_self_eq_zero.1 h)
  have dAd : (cgT A v i).d ⬝ᵥ A *ᵥ (cgT A v i).d ≠ 0 := by
    refine (hA.2 _ fun h0 => gg ?_).ne'
    rw [← I.gd, h0, dotProduct_zero]
  have eg : (cgT A v (i + 1)).g = (cgT A v i).g - (((cgT A v i).g ⬝ᵥ (cgT A v i).g) / ((cgT A v i).d ⬝ᵥ A *ᵥ (cgT A v i).d)) •
      A *ᵥ (cgT A v i).d := rfl
  have hAd : A *ᵥ (cgT A v i).d = (((cgT A v i).d ⬝ᵥ A *ᵥ (cgT A v i).d) / ((cgT A v i).g ⬝ᵥ (cgT A v i).g)) •
      ((cgT A v i).g - (cgT A v (i + 1)).g) := by
    rw [eg, sub_sub_cancel, smul_smul, div_mul_div_comm, mul_comm ((cgT A v i).d ⬝ᵥ _), div_self (mul_ne_zero gg dAd), one_smul]
  rw [hAd]
  exact Submodule.smul_mem _ _ (Submodule.sub_mem _ (g_mem A v (by omega)) (g_mem A v (by omega)))

lemma mul_mem (hA : SPD A) (v : Fin n → ℝ) (m : ℕ) (hne : ∀ j < m, (cgT A v j).g ≠ 0) {j : ℕ} (hj : j ≤ m) (u : Fin n → ℝ) (hu : u ∈ dirs A v j) :
    A *ᵥ u ∈ dirs A v (j + 1) := by
  refine Submodule.span_induction (p := fun u _ => A *ᵥ u ∈ dirs A v (j + 1)) ?_ ?_ ?_ ?_ hu
  · rintro u ⟨i, hi, rfl⟩
    exact dirs_mono A v (by omega) (Ad_mem hA v m hne (by omega))
  · rw [mulVec_zero]
    exact Submodule.zero_mem _
  · intro a b _ _ ha hb
    rw [mulVec_add]
    exact Submodule.add_mem _ ha hb
  · intro c a _ ha
    rw [mulVec_smul]
    exact Submodule.smul_mem _ _ ha

lemma pow_mem (hA : SPD A) (v : Fin n → ℝ) (m : ℕ) (hne : ∀ j < m, (cgT A v j).g ≠ 0) (j : ℕ) (hj : j < m) :
    (A ^ j) *ᵥ (cgT A v 0).g ∈ dirs A v (j + 1) := by
  induction j with
  | zero =>
    rw [pow_zero, one_mulVec]
    exact g_mem A v (by omega)
  | succ j ih =>
    rw [pow_succ', ← mulVec_mulVec]
    exact mul_mem hA v m hne (by omega) _ (ih (by omega))

lemma poly_mem (hA : SPD A) (v : Fin n → ℝ) (m : ℕ) (hne : ∀ j < m, (cgT A v j).g ≠ 0) (r : ℝ[X]) (hr : r = 0 ∨ r.natDegree < m) :
    (aeval A r) *ᵥ (cgT A v 0).g ∈ dirs A v m := by
  rcases hr with rfl | hr
  · rw [map_zero, zero_mulVec]
    exact Submodule.zero_mem _
  · rw [aeval_eq_sum_range, Matrix.sum_mulVec]
    refine Submodule.sum_mem _ fun j hj => ?_
    rw [smul_mulVec]
    have hj' : j < m := by
      rw [Finset.mem_range] at hj
      omega
    exact Submodule.smul_mem _ _ (dirs_mono A v (by omega) (pow_mem hA v m hne j hj'))

lemma g_orth (hA : SPD A) (v : Fin n → ℝ) (m : ℕ) (hne : ∀ j < m, (cgT A v j).g ≠ 0) (u : Fin n → ℝ) (hu : u ∈ dirs A v m) :
    (cgT A v m).g ⬝ᵥ u = 0 := by
  have I := inv_all hA v m hne m le_rfl
  refine Submodule.span_induction (p := fun u _ => (cgT A v m).g ⬝ᵥ u = 0) ?_ ?_ ?_ ?_ hu
  · rintro u ⟨i, hi, rfl⟩
    exact I.gdi i hi
  · exact dotProduct_zero _
  · intro a b _ _ ha hb
    rw [dotProduct_add, ha, hb, add_zero]
  · intro c a _ ha
    rw [dotProduct_smul, ha, smul_zero]

/-- A run that ends has not met a zero residual before. -/
lemma run_ne (hA : SPD A) (v : Fin n → ℝ) (m : ℕ) (s : CG ℝ n) (h : cgRun A v m = some s) : (∀ j < m, (cgT A v j).g ≠ 0) ∧ s = cgT A v m := by
  have hne : ∀ j < m, (cgT A v j).g ≠ 0 := by
    by_contra hc
    push Not at hc
    classical
    have hex' : ∃ j, (cgT A v j).g = 0 := ⟨_, hc.choose_spec.2⟩
    have hlt : Nat.find hex' < m := lt_of_le_of_lt (Nat.find_min' hex' hc.choose_spec.2) hc.choose_spec.1
    have hr := run_eq hA v _ (fun j hj => Nat.find_min hex' hj)
    have := (C23_breakdown A v _ _ hr (Nat.find_spec hex') m hlt 0).2
    simp [ihvpCG, h] at this
  refine ⟨hne, ?_⟩
  have := run_eq hA v m hne
  rw [h] at this
  exact Option.some.inj this

/-- The iterate is at least as good as every polynomial of the matrix applied to the first error. -/
lemma cg_optimal (hA : SPD A) (v x₀ : Fin n → ℝ) (hx : A *ᵥ x₀ = v) (m : ℕ) (s : CG ℝ n) (h : cgRun A v m = some s) (q : ℝ[X]) (hq : q.natDegree ≤ m)
    (h0 : q.eval 0 = 1) : energy A (s.x - x₀) ≤ energy A ((aeval A q) *ᵥ (v - x₀)) := by
  obtain ⟨hne, rfl⟩ := run_ne hA v m s h
  obtain ⟨r, hr⟩ : X ∣ q - 1 := by
    rw [X_dvd_iff, coeff_sub, coeff_one_zero, coeff_zero_eq_eval_zero, h0, sub_self]
  have hrdeg : r = 0 ∨ r.natDegree < m := by
    by_cases hr0 : r = 0
    · exact Or.inl hr0
    · right
      have h1 : (X * r).natDegree = r.natDegree + 1 := natDegree_X_mul hr0
      have h2 : (q - 1).natDegree ≤ m := (natDegree_sub_le _ _).trans (by simpa using hq)
      rw [hr, h1] at h2
      omega
  have hg0 : (cgT A v 0).g = -(A *ᵥ (v - x₀)) := by
    show v - A *ᵥ v = _
    rw [mulVec_sub, hx]
    abel
  have hy : (aeval A q) *ᵥ (v - x₀) = (v - x₀) - (aeval A r) *ᵥ (cgT A v 0).g := by
    have e : q = 1 + r * X := by
      rw [mul_comm, ← hr]
      ring
    rw [hg0, e, map_add, map_one, map_mul, aeval_X, add_mulVec, one_mulVec, mulVec_neg, sub_neg_eq_add, mulVec_mulVec]
  have hgm : (cgT A v m).g = v - A *ᵥ (cgT A v m).x := C21_residual A v m _ h
  set w := (aeval A q) *ᵥ (v - x₀) - ((cgT A v m).x - x₀) with hw
  have hwm : w ∈ dirs A v m := by
    have : w = -((aeval A r) *ᵥ (cgT A v 0).g) - ((cgT A v m).x - v) := by
      rw [hw, hy]
      abel
    rw [this]
    exact Submodule.sub_mem _ (Submodule.neg_mem _ (poly_mem hA v m hne r hrdeg)) (x_mem A v m)
  have ho := g_orth hA v m hne w hwm
  have hAe : A *ᵥ ((cgT A v m).x - x₀) = -(cgT A v m).g := by
    rw [mulVec_sub, hx, hgm]
    abel
  have e : (aeval A q) *ᵥ (v - x₀) = ((cgT A v m).x - x₀) + w := by
    rw [hw]
    abel
  have hww : 0 ≤ w ⬝ᵥ A *ᵥ w := by
    by_cases hw0 : w = 0
    · rw [hw0, zero_dotProduct]
    · exact (hA.2 w hw0).le
  rw [e]
  unfold energy
  rw [mulVec_add, dotProduct_add, add_dotProduct, add_dotProduct, symm_dot hA.1 ((cgT A v m).x - x₀) w, hAe, dotProduct_neg, dotProduct_neg,
    dotProduct_comm w, ho]
  linarith

/-! ### Polynomials of a symmetric matrix -/

lemma spectral_energy (hA : Aᵀ = A) (μ L : ℝ) (hlo : ∀ u, μ * (u ⬝ᵥ u) ≤ u ⬝ᵥ A *ᵥ u) (hhi : ∀ u, u ⬝ᵥ A *ᵥ u ≤ L * (u ⬝ᵥ u)) (hμ : 0 ≤ μ) (q : ℝ[X]) (c : ℝ)
    (hq : ∀ t, μ ≤ t → t ≤ L → |q.eval t| ≤ c) (e : Fin n → ℝ) : energy A ((aeval A q) *ᵥ e) ≤ c ^ 2 * energy A e := by
  have hH : A.IsHermitian := by
    rw [IsHermitian, conjTranspose_eq_transpose_of_trivial, hA]
  set U : Matrix (Fin n) (Fin n) ℝ := (hH.eigenvectorUnitary : Matrix (Fin n) (Fin n) ℝ) with hU
  set D : Matrix (Fin n) (Fin n) ℝ := diagonal hH.eigenvalues with hD
  have hUU : Uᵀ * U = 1 := by
    have := Unitary.coe_star_mul_self hH.eigenvectorUnitary
    rwa [star_eq_conjTranspose, conjTranspose_eq_transpose_of_trivial] at this
  have hAU : A = U * D * Uᵀ := by
    have := hH.spectral_theorem
    rw [Unitary.conjStarAlgAut_apply, star_eq_conjTranspose, conjTranspose_eq_transpose_of_trivial] at this
    exact this
  have hAUd : A * U = U * D := by
    conv_lhs => rw [hAU]
    rw [Matrix.mul_assoc, hUU, Matrix.mul_one]
  have hpow : ∀ j : ℕ, A ^ j * U = U * diagonal fun i => hH.eigenvalues i ^ j := by
    intro j
    induction j with
    | zero => simp
    | succ j ih =>
      rw [pow_succ, Matrix.mul_assoc]
      rw [hAUd, ← Matrix.mul_assoc, ih, Matrix.mul_assoc, hD, diagonal_mul_diagonal]
      rfl
  have hpoly : aeval A q * U = U * diagonal fun i => q.eval (hH.eigenvalues i) := by
    rw [aeval_eq_sum_range, Finset.sum_mul]
    have e1 : (diagonal fun i => q.eval (hH.eigenvalues i)) =
        ∑ j ∈ Finset.range (q.natDegree + 1), q.coeff j • diagonal fun i => hH.eigenvalues i ^ j := by
      ext a b
      rw [Matrix.sum_apply]
      by_cases hab : a = b
      · subst hab
        simp [eval_eq_sum_range]
      · simp [hab]
    rw [e1, Finset.mul_sum]
    refine Finset.sum_congr rfl fun j _ => ?_
    rw [smul_mul_assoc, hpow, mul_smul_comm]
  have hUUt : U * Uᵀ = 1 := mul_eq_one_comm.1 hUU
  have hen : ∀ w, energy A (U *ᵥ w) = ∑ i, hH.eigenvalues i * w i ^ 2 := by
    intro w
    unfold energy
    rw [mulVec_mulVec, hAUd, ← mulVec_mulVec, dotProduct_mulVec, ← mulVec_transpose, mulVec_mulVec, hUU,
      one_mulVec]
    refine Finset.sum_congr rfl fun i _ => ?_
    rw [hD, mulVec_diagonal]
    ring
  have hdot : ∀ w, (U *ᵥ w) ⬝ᵥ (U *ᵥ w) = w ⬝ᵥ w := by
    intro w
    rw [dotProduct_mulVec, ← mulVec_transpose, mulVec_mulVec, hUU, one_mulVec]
  have hev : ∀ i, μ ≤ hH.eigenvalues i ∧ hH.eigenvalues i ≤ L := by
    intro i
    have h1 := hlo (U *ᵥ Pi.single i 1)
    have h2 := hhi (U *ᵥ Pi.single i 1)
    have h3 := hen (Pi.single i 1)
    unfold energy at h3
    rw [h3, hdot] at h1 h2
    have e1 : ∑ k, hH.eigenvalues k * (Pi.single i (1 : ℝ) : Fin n → ℝ) k ^ 2 = hH.eigenvalues i := by
      rw [Finset.sum_eq_single i]
      · simp
      · intro k _ hk
        simp [hk]
      · simp
    have e2 : (Pi.single i (1 : ℝ) : Fin n → ℝ) ⬝ᵥ Pi.single i 1 = 1 := by simp
    rw [e1, e2, mul_one] at h1 h2
    exact ⟨h1, h2⟩
  have he : e = U *ᵥ (Uᵀ *ᵥ e) := by rw [mulVec_mulVec, hUUt, one_mulVec]
  set w := Uᵀ *ᵥ e with hw
  have h1 : (aeval A q) *ᵥ e = U *ᵥ ((diagonal fun i => q.eval (hH.eigenvalues i)) *ᵥ w) := by
    rw [mulVec_mulVec, ← hpoly, ← mulVec_mulVec, ← he]
  rw [h1, hen]
  conv_rhs => rw [he, hen, Finset.mul_sum]
  refine Finset.sum_le_sum fun i _ => ?_
  rw [mulVec_diagonal]
  obtain ⟨a, b⟩ := hev i
  have h2 := hq _ a b
  have h3 : q.eval (hH.eigenvalues i) ^ 2 ≤ c ^ 2 := by
    rw [← sq_abs]
    exact pow_le_pow_left₀ (abs_nonneg _) h2 2
  have h4 : 0 ≤ hH.eigenvalues i * w i ^ 2 := mul_nonneg (hμ.trans a) (sq_nonneg _)
  nlinarith

/-! ### Chebyshev polynomials -/

/-- The value outside the interval. -/
lemma cheb_value (z : ℝ) (hz : z ≠ 0) (m : ℕ) : (Chebyshev.T ℝ (m : ℤ)).eval ((z + z⁻¹) / 2) = (z ^ m + z⁻¹ ^ m) / 2 := by
  induction m using Nat.strong_induction_on with
  | _ m ih =>
    match m with
    | 0 => simp
    | 1 => simp
    | m + 2 =>
      have h := Chebyshev.T_add_two ℝ (m : ℤ)
      have e : ((m + 2 : ℕ) : ℤ) = (m : ℤ) + 2 := by push_cast; ring
      have h1 := ih (m + 1) (by omega)
      have h0 := ih m (by omega)
      push_cast at h1
      rw [e, h]
      simp only [eval_sub, eval_mul, eval_X, eval_ofNat, h1, h0]
      have hzz : z * z⁻¹ = 1 := mul_inv_cancel₀ hz
      rw [pow_succ z (m + 1), pow_succ z m, pow_succ z⁻¹ (m + 1), pow_succ z⁻¹ m]
      linear_combination (z ^ m + z⁻¹ ^ m) / 2 * hzz

lemma cheb_poly (μ L : ℝ) (hμ : 0 < μ) (hL : μ ≤ L) (m : ℕ) : ∃ q : ℝ[X], q.natDegree ≤ m ∧ q.eval 0 = 1 ∧
    ∀ t, μ ≤ t → t ≤ L → |q.eval t| ≤ 2 * ((Real.sqrt L - Real.sqrt μ) / (Real.sqrt L + Real.sqrt μ)) ^ m := by
  have hL0 : 0 < L := hμ.trans_le hL
  have ha := Real.sq_sqrt hL0.le
  have hb := Real.sq_sqrt hμ.le
  have ha0 := Real.sqrt_pos.2 hL0
  have hb0 := Real.sqrt_pos.2 hμ
  rcases hL.eq_or_lt with rfl | hlt
  · rcases Nat.eq_zero_or_pos m with rfl | hm
    · exact ⟨1, by simp, by simp, fun t _ _ => by simp⟩
    · refine ⟨1 - C (μ⁻¹) * X, ?_, by simp, fun t h1 h2 => ?_⟩
      · refine (natDegree_sub_le _ _).trans ?_
        simp only [natDegree_one, max_le_iff, zero_le, true_and]
        exact ((natDegree_C_mul_le _ _).trans natDegree_X_le).trans hm
      · obtain rfl : t = μ := le_antisymm h2 h1
        simp [inv_mul_cancel₀ hμ.ne', hm.ne']
  · set a := Real.sqrt L with hadef
    set b := Real.sqrt μ with hbdef
    have hab : b < a := Real.sqrt_lt_sqrt hμ.le hlt
    have hamb : 0 < a - b := sub_pos.2 hab
    set z := (a + b) / (a - b) with hz
    have hz0 : 0 < z := div_pos (by linarith) hamb
    have hd : 0 < L - μ := sub_pos.2 hlt
    have hσ : (L + μ) / (L - μ) = (z + z⁻¹) / 2 := by
      rw [hz, inv_div, ← ha, ← hb]
      have h1 : a ^ 2 - b ^ 2 ≠ 0 := by rw [ha, hb]; exact hd.ne'
      have h2 : a - b ≠ 0 := hamb.ne'
      have h3 : a + b ≠ 0 := by positivity
      field_simp
      ring
    set Tm := Chebyshev.T ℝ (m : ℤ) with hT
    have hval : Tm.eval ((L + μ) / (L - μ)) = (z ^ m + z⁻¹ ^ m) / 2 := by rw [hσ, cheb_value z hz0.ne']
    have hpos : 0 < Tm.eval ((L + μ) / (L - μ)) := by rw [hval]; positivity
    have hge : z ^ m / 2 ≤ Tm.eval ((L + μ) / (L - μ)) := by
      rw [hval]
      have : 0 < z⁻¹ ^ m := by positivity
      linarith
    refine ⟨C ((Tm.eval ((L + μ) / (L - μ)))⁻¹) * Tm.comp (C ((L + μ) / (L - μ)) - C (2 / (L - μ)) * X), ?_, ?_, ?_⟩
    · refine (natDegree_C_mul_le _ _).trans (natDegree_comp_le.trans ?_)
      have h1 : Tm.natDegree = m := by rw [hT, Chebyshev.natDegree_T]; simp
      have h2 : (C ((L + μ) / (L - μ)) - C (2 / (L - μ)) * X : ℝ[X]).natDegree ≤ 1 := by
        refine (natDegree_sub_le _ _).trans ?_
        simp only [natDegree_C, max_le_iff, zero_le, true_and]
        exact natDegree_C_mul_le _ _ |>.trans natDegree_X_le
      calc Tm.natDegree * _ ≤ m * 1 := Nat.mul_le_mul h1.le h2
        _ = m := mul_one m
    · simp [eval_comp, inv_mul_cancel₀ hpos.ne']
    · intro t h1 h2
      have hx : |(L + μ) / (L - μ) - 2 / (L - μ) * t| ≤ 1 := by
        have e : (L + μ) / (L - μ) - 2 / (L - μ) * t = (L + μ - 2 * t) / (L - μ) := by ring
        rw [e, abs_div, abs_of_pos hd, div_le_one hd, abs_le]
        constructor <;> linarith
      have hT1 := Chebyshev.abs_eval_T_real_le_one (m : ℤ) hx
      have hρ : (a - b) / (a + b) = z⁻¹ := by rw [hz, inv_div]
      simp only [eval_mul, eval_C, eval_comp, eval_sub, eval_X]
      rw [abs_mul, abs_inv, abs_of_pos hpos, hρ]
      calc (Tm.eval ((L + μ) / (L - μ)))⁻¹ * |Tm.eval ((L + μ) / (L - μ) - 2 / (L - μ) * t)|
          ≤ (z ^ m / 2)⁻¹ * 1 := by
            refine mul_le_mul (inv_anti₀ (by positivity) hge) hT1 (abs_nonneg _) (by positivity)
        _ = 2 * z⁻¹ ^ m := by
            rw [mul_one, inv_div, inv_pow]
            rfl

/-! ### C156 -/

/-- **C156** (rate). For a symmetric matrix with eigenvalues between `μ > 0` and `L`, every finite result of `ihvp_cg` with `max_iter = m` is close to the
solution: its error in the energy norm is at most `2 ((√L - √μ) / (√L + √μ))^m` times that of the start `v`. -/
theorem C156_rate (A : Matrix (Fin n) (Fin n) ℝ) (hA : Aᵀ = A) (μ L : ℝ) (hμ : 0 < μ) (hL : μ ≤ L) (hlo : ∀ u, μ * (u ⬝ᵥ u) ≤ u ⬝ᵥ A *ᵥ u)
    (hhi : ∀ u, u ⬝ᵥ A *ᵥ u ≤ L * (u ⬝ᵥ u)) (v x₀ : Fin n → ℝ) (hx : A *ᵥ x₀ = v) (m : ℕ) (tol : ℝ) (x : Fin n → ℝ) (h : ihvpCG A m tol v = some x) :
    (x - x₀) ⬝ᵥ A *ᵥ (x - x₀) ≤ (2 * ((Real.sqrt L - Real.sqrt μ) / (Real.sqrt L + Real.sqrt μ)) ^ m) ^ 2 * ((v - x₀) ⬝ᵥ A *ᵥ (v - x₀)) := by
  have hS : SPD A := ⟨hA, fun u hu => lt_of_lt_of_le (mul_pos hμ (lt_of_le_of_ne (Finset.sum_nonneg fun k _ => mul_self_nonneg _)
    fun h => hu (dotProduct_self_eq_zero.1 h.symm))) (hlo u)⟩
  unfold ihvpCG at h
  rw [Option.map_eq_some_iff] at h
  obtain ⟨s, hs, rfl⟩ := h
  obtain ⟨q, hq, h0, hb⟩ := cheb_poly μ L hμ hL m
  exact (cg_optimal hS v x₀ hx m s hs q hq h0).trans (spectral_energy hA μ L hlo hhi hμ.le q _ hb _)

/-- **C156** (scores). The inner product of a finite result with any vector `g` is as close to that of the solution. -/
theorem C156_inner (A : Matrix (Fin n) (Fin n) ℝ) (hA : Aᵀ = A) (μ L : ℝ) (hμ : 0 < μ) (hL : μ ≤ L) (hlo : ∀ u, μ * (u ⬝ᵥ u) ≤ u ⬝ᵥ A *ᵥ u)
    (hhi : ∀ u, u ⬝ᵥ A *ᵥ u ≤ L * (u ⬝ᵥ u)) (v x₀ : Fin n → ℝ) (hx : A *ᵥ x₀ = v) (m : ℕ) (tol : ℝ) (x : Fin n → ℝ) (h : ihvpCG A m tol v = some x)
    (g : Fin n → ℝ) : |g ⬝ᵥ x - g ⬝ᵥ x₀| ≤ 2 * ((Real.sqrt L - Real.sqrt μ) / (Real.sqrt L + Real.sqrt μ)) ^ m * Real.sqrt (L / μ * (1 + 1 / μ ^ 2)) *
      (Real.sqrt (g ⬝ᵥ g) * Real.sqrt (v ⬝ᵥ v)) := by
  have hr := C156_rate A hA μ L hμ hL hlo hhi v x₀ hx m tol x h
  set ρ := (Real.sqrt L - Real.sqrt μ) / (Real.sqrt L + Real.sqrt μ) with hρ
  have hρ0 : 0 ≤ ρ := div_nonneg (sub_nonneg.2 (Real.sqrt_le_sqrt hL)) (add_nonneg (Real.sqrt_nonneg _) (Real.sqrt_nonneg _))
  have nn : ∀ u : Fin n → ℝ, 0 ≤ u ⬝ᵥ u := fun u => Finset.sum_nonneg fun k _ => mul_self_nonneg _
  have cs : ∀ u w : Fin n → ℝ, (u ⬝ᵥ w) ^ 2 ≤ (u ⬝ᵥ u) * (w ⬝ᵥ w) := by
    intro u w
    have := Finset.sum_mul_sq_le_sq_mul_sq Finset.univ u w
    simpa [dotProduct, pow_two] using this
  have hL0 : 0 < L := hμ.trans_le hL
  -- the solution is not longer than `v / μ`
  have hx0 : μ ^ 2 * (x₀ ⬝ᵥ x₀) ≤ v ⬝ᵥ v := by
    have h1 := hlo x₀
    rw [hx] at h1
    have h2 := cs x₀ v
    rcases (nn x₀).eq_or_lt with h0 | h0
    · rw [← h0, mul_zero]
      exact nn v
    · have h3 : 0 ≤ μ * (x₀ ⬝ᵥ x₀) := by positivity
      have h4 : (μ * (x₀ ⬝ᵥ x₀)) ^ 2 ≤ (x₀ ⬝ᵥ x₀) * (v ⬝ᵥ v) := (pow_le_pow_left₀ h3 h1 2).trans h2
      have h5 : (x₀ ⬝ᵥ x₀) * (μ ^ 2 * (x₀ ⬝ᵥ x₀)) ≤ (x₀ ⬝ᵥ x₀) * (v ⬝ᵥ v) := by linarith [h4, show (μ * (x₀ ⬝ᵥ x₀)) ^ 2 = (x₀ ⬝ᵥ x₀) * (μ ^ 2 * (x₀ ⬝ᵥ x₀)) by ring]
      exact le_of_mul_le_mul_left h5 h0
  have hstart : (v - x₀) ⬝ᵥ (v - x₀) ≤ (1 + 1 / μ ^ 2) * (v ⬝ᵥ v) := by
    have h1 : 0 ≤ x₀ ⬝ᵥ v := by
      have := hlo x₀
      rw [hx] at this
      exact le_trans (mul_nonneg hμ.le (nn x₀)) this
    have h2 : x₀ ⬝ᵥ x₀ ≤ 1 / μ ^ 2 * (v ⬝ᵥ v) := by
      rw [one_div, inv_mul_eq_div, le_div_iff₀ (by positivity)]
      linarith
    rw [sub_dotProduct, dotProduct_sub, dotProduct_sub, dotProduct_comm v x₀]
    linarith
  have hfin : (x - x₀) ⬝ᵥ (x - x₀) ≤ (2 * ρ ^ m) ^ 2 * (L / μ * (1 + 1 / μ ^ 2)) * (v ⬝ᵥ v) := by
    have h1 := (hlo (x - x₀)).trans hr
    have h2 := (hhi (v - x₀)).trans (mul_le_mul_of_nonneg_left hstart hL0.le)
    have h3 := h1.trans (mul_le_mul_of_nonneg_left h2 (sq_nonneg _))
    have h4 : (x - x₀) ⬝ᵥ (x - x₀) = (μ * ((x - x₀) ⬝ᵥ (x - x₀))) / μ := by field_simp
    rw [h4, div_le_iff₀ hμ]
    refine h3.trans (le_of_eq ?_)
    field_simp
  rw [← dotProduct_sub]
  have hB : 0 ≤ L / μ * (1 + 1 / μ ^ 2) := by positivity
  refine abs_le_of_sq_le_sq ?_ (by positivity)
  have e : (2 * ρ ^ m * Real.sqrt (L / μ * (1 + 1 / μ ^ 2)) * (Real.sqrt (g ⬝ᵥ g) * Real.sqrt (v ⬝ᵥ v))) ^ 2 =
      (g ⬝ᵥ g) * ((2 * ρ ^ m) ^ 2 * (L / μ * (1 + 1 / μ ^ 2)) * (v ⬝ᵥ v)) := by
    rw [mul_pow, mul_pow, mul_pow (Real.sqrt (g ⬝ᵥ g)), Real.sq_sqrt hB, Real.sq_sqrt (nn g), Real.sq_sqrt (nn v)]
    ring
  rw [e]
  exact (cs _ _).trans (mul_le_mul_of_nonneg_left hfin (nn g))

/-- A case meeting the hypotheses, with a finite result that is not exact. -/
example : ∃ (A : Matrix (Fin 2) (Fin 2) ℝ) (v : Fin 2 → ℝ), Aᵀ = A ∧ (∀ u, 2 * (u ⬝ᵥ u) ≤ u ⬝ᵥ A *ᵥ u) ∧ (∀ u, u ⬝ᵥ A *ᵥ u ≤ 3 * (u ⬝ᵥ u)) ∧
    ∃ x, ihvpCG A 1 0 v = some x ∧ A *ᵥ x ≠ v := by
  refine ⟨!![2, 0; 0, 3], ![1, 1], ?_, ?_, ?_, ![9 / 14, 2 / 7], ?_, ?_⟩
  · ext i j
    fin_cases i <;> fin_cases j <;> rfl
  · intro u
    simp [dotProduct, mulVec, Fin.sum_univ_two]
    nlinarith [sq_nonneg (u 1)]
  · intro u
    simp [dotProduct, mulVec, Fin.sum_univ_two]
    nlinarith [sq_nonneg (u 0)]
  · have h1 : (![1, 1] : Fin 2 → ℝ) - !![2, 0; 0, 3] *ᵥ ![1, 1] = ![-1, -2] := by
      ext i
      fin_cases i <;> simp <;> norm_num
    have h2 : !![2, 0; 0, 3] *ᵥ (![-1, -2] : Fin 2 → ℝ) = ![-2, -6] := by
      ext i
      fin_cases i
      · simp [mulVec, dotProduct, Fin.sum_univ_two]
      · simp [mulVec, dotProduct, Fin.sum_univ_two]
        norm_num
    simp only [ihvpCG, cgRun, cgInit, cgStep, Option.bind_some, h1, h2]
    rw [if_neg (by simp [dotProduct, Fin.sum_univ_two]; norm_num), if_neg (by simp [dotProduct, Fin.sum_univ_two]; norm_num)]
    simp only [Option.map_some, Option.some.injEq]
    ext i
    fin_cases i <;> simp [dotProduct, Fin.sum_univ_two] <;> norm_num
  · intro h
    have := congrFun h 0
    simp [mulVec, dotProduct, Fin.sum_univ_two] at this
    norm_num at this

end Verif.Hessian
