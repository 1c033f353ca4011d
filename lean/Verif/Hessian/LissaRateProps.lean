import Verif.Hessian.LissaProps
import Verif.Hessian.LissaMeanProps
import Mathlib.Analysis.Matrix.Spectrum
import Mathlib.Analysis.SpecificLimits.Normed
import Mathlib.Analysis.InnerProductSpace.PiL2
import Mathlib.Topology.Algebra.Monoid
import Mathlib.Tactic.Positivity

/-!
# C161: when LiSSA converges

For a symmetric Hessian, the recursion of `ihvp_lissa` converges for every vector exactly when every eigenvalue `μ` of the Hessian
satisfies `|1 - damping - μ/scaling| < 1`; with mini-batches the same condition decides the convergence of the expected result, and a
uniform bound on the batch Hessians bounds every single execution.
-/

namespace Verif.Hessian

open Matrix Filter Topology

variable {n N : Nat}

/-- Specification: `μ` is an eigenvalue of `H`. -/
def IsEig (H : Matrix (Fin n) (Fin n) ℝ) (μ : ℝ) : Prop := ∃ u : Fin n → ℝ, u ≠ 0 ∧ H *ᵥ u = μ • u

/-! ### Helpers -/

/-- Diagonalisation of a symmetric matrix. -/
lemma symm_diag (A : Matrix (Fin n) (Fin n) ℝ) (hA : Aᵀ = A) :
    ∃ (U : Matrix (Fin n) (Fin n) ℝ) (e : Fin n → ℝ), Uᵀ * U = 1 ∧ U * Uᵀ = 1 ∧ A = U * diagonal e * Uᵀ ∧ ∀ i, IsEig A (e i) := by
  have hH : A.IsHermitian := by
    rw [IsHermitian, conjTranspose_eq_transpose_of_trivial, hA]
  have hUU : (hH.eigenvectorUnitary : Matrix (Fin n) (Fin n) ℝ)ᵀ * (hH.eigenvectorUnitary : Matrix (Fin n) (Fin n) ℝ) = 1 := by
    have := Unitary.coe_star_mul_self hH.eigenvectorUnitary
    rwa [star_eq_conjTranspose, conjTranspose_eq_transpose_of_trivial] at this
  have hAU : A = (hH.eigenvectorUnitary : Matrix (Fin n) (Fin n) ℝ) * diagonal hH.eigenvalues *
      (hH.eigenvectorUnitary : Matrix (Fin n) (Fin n) ℝ)ᵀ := by
    have := hH.spectral_theorem
    rw [Unitary.conjStarAlgAut_apply, star_eq_conjTranspose, conjTranspose_eq_transpose_of_trivial] at this
    exact this
  refine ⟨_, hH.eigenvalues, hUU, mul_eq_one_comm.1 hUU, hAU, fun i => ?_⟩
  set U := (hH.eigenvectorUnitary : Matrix (Fin n) (Fin n) ℝ)
  refine ⟨U *ᵥ Pi.single i 1, fun h0 => ?_, ?_⟩
  · have : Uᵀ *ᵥ (U *ᵥ Pi.single i 1) = 0 := by rw [h0, mulVec_zero]
    rw [mulVec_mulVec, hUU, one_mulVec] at this
    have := congrFun this i
    simp at this
  · conv_lhs => rw [hAU]
    rw [mulVec_mulVec, Matrix.mul_assoc, hUU, Matrix.mul_one, ← mulVec_mulVec, ← mulVec_smul]
    congr 1
    funext k
    rw [mulVec_diagonal]
    by_cases hk : k = i
    · subst hk; simp
    · simp [hk]

lemma diag_pow (U : Matrix (Fin n) (Fin n) ℝ) (e : Fin n → ℝ) (h1 : Uᵀ * U = 1) (h2 : U * Uᵀ = 1) (k : ℕ) :
    (U * diagonal e * Uᵀ) ^ k = U * diagonal (fun i => e i ^ k) * Uᵀ := by
  induction k with
  | zero => simp [h2]
  | succ k ih =>
    rw [pow_succ, ih]
    calc U * diagonal (fun i => e i ^ k) * Uᵀ * (U * diagonal e * Uᵀ)
        = U * (diagonal (fun i => e i ^ k) * ((Uᵀ * U) * diagonal e)) * Uᵀ := by simp only [Matrix.mul_assoc]
      _ = _ := by rw [h1, Matrix.one_mul, diagonal_mul_diagonal]; rfl

/-- The eigenvalues of the iteration matrix. -/
lemma iterMat_eig (H : Matrix (Fin n) (Fin n) ℝ) (d s m : ℝ) (hs : s ≠ 0) :
    IsEig (iterMat H d s) m ↔ IsEig H (s * (1 - d - m)) := by
  unfold IsEig
  refine exists_congr fun u => and_congr_right fun _ => ?_
  have e : iterMat H d s *ᵥ u = (1 - d) • u - s⁻¹ • (H *ᵥ u) := by
    simp only [iterMat, sub_mulVec, add_mulVec, one_mulVec, smul_mulVec]
    module
  rw [e]
  constructor
  · intro h
    have : H *ᵥ u = s • ((1 - d) • u - ((1 - d) • u - s⁻¹ • (H *ᵥ u))) := by
      rw [sub_sub_cancel, smul_smul, mul_inv_cancel₀ hs, one_smul]
    rw [this, h]; module
  · intro h
    rw [h, smul_smul, ← mul_assoc, inv_mul_cancel₀ hs]; module

lemma iterMat_symm (H : Matrix (Fin n) (Fin n) ℝ) (hH : Hᵀ = H) (d s : ℝ) : (iterMat H d s)ᵀ = iterMat H d s := by
  simp [iterMat, transpose_sub, transpose_add, transpose_smul, hH]

/-- Convergence of the Neumann series of a symmetric matrix. -/
lemma neumann_iff (M : Matrix (Fin n) (Fin n) ℝ) (hM : Mᵀ = M) :
    (∀ v : Fin n → ℝ, ∃ l, Tendsto (fun T : ℕ => (∑ k ∈ Finset.range (T + 1), M ^ k) *ᵥ v) atTop (𝓝 l)) ↔
      ∀ m, IsEig M m → |m| < 1 := by
  constructor
  · rintro h m ⟨u, hu, hm⟩
    obtain ⟨l, hl⟩ := h u
    obtain ⟨i, hi⟩ := Function.ne_iff.1 hu
    have hp : ∀ k : ℕ, M ^ k *ᵥ u = m ^ k • u := by
      intro k
      induction k with
      | zero => simp
      | succ k ih => rw [pow_succ, ← mulVec_mulVec, hm, mulVec_smul, ih, smul_smul, pow_succ']
    have h1 : Tendsto (fun T : ℕ => ((∑ k ∈ Finset.range (T + 1), M ^ k) *ᵥ u) i) atTop (𝓝 (l i)) :=
      (continuous_apply i).continuousAt.tendsto.comp hl
    have h2 := (h1.comp (tendsto_add_atTop_nat 1)).sub h1
    rw [sub_self] at h2
    have h3 : Tendsto (fun T : ℕ => m ^ (T + 1) * u i) atTop (𝓝 0) := by
      refine h2.congr fun T => ?_
      simp only [Function.comp]
      rw [Finset.sum_range_succ _ (T + 1), add_mulVec, hp]
      simp
    have h4 : Tendsto (fun T : ℕ => m ^ T) atTop (𝓝 0) := by
      have := h3.mul_const (u i)⁻¹
      rw [zero_mul] at this
      have h5 : Tendsto (fun T : ℕ => m ^ (T + 1)) atTop (𝓝 0) :=
        this.congr fun T => by rw [mul_assoc, mul_inv_cancel₀ hi, mul_one]
      exact (tendsto_add_atTop_iff_nat 1).1 h5
    exact tendsto_pow_atTop_nhds_zero_iff.1 h4
  · intro h v
    obtain ⟨U, e, h1, h2, hA, he⟩ := symm_diag M hM
    refine ⟨U *ᵥ (fun i => (1 - e i)⁻¹ * (Uᵀ *ᵥ v) i), ?_⟩
    have hsum : ∀ T : ℕ, (∑ k ∈ Finset.range (T + 1), M ^ k) *ᵥ v =
        U *ᵥ (fun i => (∑ k ∈ Finset.range (T + 1), e i ^ k) * (Uᵀ *ᵥ v) i) := by
      intro T
      have : ∑ k ∈ Finset.range (T + 1), M ^ k = U * diagonal (fun i => ∑ k ∈ Finset.range (T + 1), e i ^ k) * Uᵀ := by
        conv_lhs => rw [hA]
        simp only [diag_pow U e h1 h2]
        rw [← Finset.sum_mul, ← Finset.mul_sum]
        congr 2
        ext a b
        rw [Matrix.sum_apply]
        by_cases hab : a = b
        · subst hab; simp
        · simp [hab]
      rw [this, ← mulVec_mulVec, ← mulVec_mulVec]
      congr 1
      funext i
      rw [mulVec_diagonal]
    simp only [hsum]
    have hc : Continuous fun w : Fin n → ℝ => U *ᵥ w := by
      refine continuous_pi fun i => ?_
      simp only [mulVec, dotProduct]
      fun_prop
    refine hc.continuousAt.tendsto.comp (tendsto_pi_nhds.2 fun i => ?_)
    refine Tendsto.mul_const _ ?_
    have hg := (hasSum_geometric_of_abs_lt_one (h _ (he i))).tendsto_sum_nat
    exact hg.comp (tendsto_add_atTop_nat 1)

/-! ### Theorems -/

/-- **C161** (full batch). For every symmetric Hessian, damping, non-zero scaling and number of repeats: the result converges as
`recursion_depth` grows, for every vector, if and only if `|1 - damping - μ/scaling| < 1` for every eigenvalue `μ`. -/
theorem C161_converges_iff (hv : List Nat → Matrix (Fin n) (Fin n) ℝ) (perm : Nat → Nat → List Nat) (bs rep : Nat)
    (H : Matrix (Fin n) (Fin n) ℝ) (hH : ∀ r t, hv (sampleBatch (perm r t) bs) = H) (hsym : Hᵀ = H) (d s : ℝ) (hrep : 0 < rep)
    (hs : s ≠ 0) :
    (∀ v : Fin n → ℝ, ∃ (x : ℕ → Fin n → ℝ) (l : Fin n → ℝ), (∀ T, ihvpLissa hv perm bs rep T d s v = .ok (some (x T))) ∧
      Tendsto x atTop (𝓝 l)) ↔ ∀ μ, IsEig H μ → |1 - d - μ / s| < 1 := by
  have h1 : (∀ μ, IsEig H μ → |1 - d - μ / s| < 1) ↔ ∀ m, IsEig (iterMat H d s) m → |m| < 1 := by
    constructor
    · intro h m hm
      have := h _ ((iterMat_eig H d s m hs).1 hm)
      rwa [mul_div_cancel_left₀ _ hs, sub_sub_cancel] at this
    · intro h μ hμ
      refine h _ ((iterMat_eig H d s _ hs).2 ?_)
      rwa [sub_sub_cancel, mul_div_cancel₀ _ hs]
  rw [h1, ← neumann_iff _ (iterMat_symm H hsym d s)]
  refine forall_congr' fun v => ?_
  constructor
  · rintro ⟨x, l, hx, hl⟩
    refine ⟨s • l, ?_⟩
    have : (fun T : ℕ => (∑ k ∈ Finset.range (T + 1), iterMat H d s ^ k) *ᵥ v) = fun T => s • x T := by
      funext T
      have := hx T
      rw [ihvpLissa_det hv perm bs rep T H hH d s v hrep hs] at this
      injection this with this
      injection this with this
      rw [← this, smul_smul, mul_inv_cancel₀ hs, one_smul]
    rw [this]
    exact hl.const_smul s
  · rintro ⟨l, hl⟩
    exact ⟨fun T => s⁻¹ • ((∑ k ∈ Finset.range (T + 1), iterMat H d s ^ k) *ᵥ v), s⁻¹ • l,
      fun T => ihvpLissa_det hv perm bs rep T H hH d s v hrep hs, hl.const_smul _⟩

/-- **C161** (defaults). With damping `0` and a positive scaling the condition is that every eigenvalue lies strictly between `0` and
twice the scaling; in particular one flat direction or one eigenvalue of `2 * scaling` or more is enough to lose convergence. -/
theorem C161_undamped_iff (hv : List Nat → Matrix (Fin n) (Fin n) ℝ) (perm : Nat → Nat → List Nat) (bs rep : Nat)
    (H : Matrix (Fin n) (Fin n) ℝ) (hH : ∀ r t, hv (sampleBatch (perm r t) bs) = H) (hsym : Hᵀ = H) (s : ℝ) (hrep : 0 < rep)
    (hs : 0 < s) :
    (∀ v : Fin n → ℝ, ∃ (x : ℕ → Fin n → ℝ) (l : Fin n → ℝ), (∀ T, ihvpLissa hv perm bs rep T 0 s v = .ok (some (x T))) ∧
      Tendsto x atTop (𝓝 l)) ↔ ∀ μ, IsEig H μ → 0 < μ ∧ μ < 2 * s := by
  rw [C161_converges_iff hv perm bs rep H hH hsym 0 s hrep hs.ne']
  refine forall_congr' fun μ => imp_congr_right fun _ => ?_
  rw [abs_lt, sub_zero]
  constructor
  · rintro ⟨h1, h2⟩
    have h3 : μ / s < 2 := by linarith
    have h4 : 0 < μ / s := by linarith
    exact ⟨by have := (div_pos_iff_of_pos_right hs).1 h4; exact this, (div_lt_iff₀ hs).1 h3⟩
  · rintro ⟨h1, h2⟩
    have h3 : μ / s < 2 := (div_lt_iff₀ hs).2 h2
    have h4 : 0 < μ / s := div_pos h1 hs
    exact ⟨by linarith, by linarith⟩

/-- **C161** (limit). Whenever the results converge, the limit solves `(H + scaling * damping * I) l = v`. -/
theorem C161_limit (hv : List Nat → Matrix (Fin n) (Fin n) ℝ) (perm : Nat → Nat → List Nat) (bs rep : Nat)
    (H : Matrix (Fin n) (Fin n) ℝ) (hH : ∀ r t, hv (sampleBatch (perm r t) bs) = H) (d s : ℝ) (hrep : 0 < rep)
    (hs : s ≠ 0) (v l : Fin n → ℝ) (x : ℕ → Fin n → ℝ) (hx : ∀ T, ihvpLissa hv perm bs rep T d s v = .ok (some (x T)))
    (hl : Tendsto x atTop (𝓝 l)) : (H + (s * d) • 1) *ᵥ l = v := by
  have hstep : ∀ T, s • x (T + 1) = v + iterMat H d s *ᵥ (s • x T) := by
    intro T
    have e : ∀ T, s • x T = (∑ k ∈ Finset.range (T + 1), iterMat H d s ^ k) *ᵥ v := by
      intro T
      have := hx T
      rw [ihvpLissa_det hv perm bs rep T H hH d s v hrep hs] at this
      injection this with this
      injection this with this
      rw [← this, smul_smul, mul_inv_cancel₀ hs, one_smul]
    rw [e, e, mulVec_mulVec, Finset.mul_sum, Finset.sum_range_succ' _ (T + 1), add_mulVec, pow_zero, one_mulVec, add_comm]
    congr 2
    exact Finset.sum_congr rfl fun k _ => pow_succ' _ _
  have hc : Continuous fun w : Fin n → ℝ => v + iterMat H d s *ᵥ (s • w) := by
    refine continuous_pi fun i => ?_
    simp only [mulVec, dotProduct, Pi.add_apply, Pi.smul_apply]
    fun_prop
  have h1 : Tendsto (fun T => s • x (T + 1)) atTop (𝓝 (s • l)) := (hl.comp (tendsto_add_atTop_nat 1)).const_smul s
  have h2 : Tendsto (fun T => s • x (T + 1)) atTop (𝓝 (v + iterMat H d s *ᵥ (s • l))) := by
    simp only [hstep]
    exact (hc.tendsto l).comp hl
  have h3 := tendsto_nhds_unique h1 h2
  have h4 : v + iterMat H d s *ᵥ (s • l) = v + (1 - d) • (s • l) - (1 / s) • (H *ᵥ (s • l)) := by
    simp only [iterMat, sub_mulVec, add_mulVec, one_mulVec, smul_mulVec, one_div]
    module
  have := (C24_fixed_point H d s hs v (s • l)).1 (h3.trans h4)
  rwa [smul_smul, inv_mul_cancel₀ hs, one_smul] at this

/-- **C161** (mini-batches). With any batch size, the expected result (over all draws of all permutations) converges for every vector
exactly under the same condition on the eigenvalues of the expected batch Hessian. -/
theorem C161_mean_iff (hv : List Nat → Matrix (Fin n) (Fin n) ℝ) (b rep : Nat) (d s : ℝ) (hrep : 0 < rep) (hs : s ≠ 0)
    (hsym : (expect fun π : Equiv.Perm (Fin N) => hv ((permList π).take b))ᵀ =
      expect fun π : Equiv.Perm (Fin N) => hv ((permList π).take b)) :
    (∀ v : Fin n → ℝ, ∃ (est : ∀ T, (Fin rep → Fin T → Equiv.Perm (Fin N)) → Fin n → ℝ) (l : Fin n → ℝ),
      (∀ T σ, ihvpLissa hv (drawsAll σ) b rep T d s v = .ok (some (est T σ))) ∧
      Tendsto (fun T => expect (est T)) atTop (𝓝 l)) ↔
      ∀ μ, IsEig (expect fun π : Equiv.Perm (Fin N) => hv ((permList π).take b)) μ → |1 - d - μ / s| < 1 := by
  set H := expect fun π : Equiv.Perm (Fin N) => hv ((permList π).take b) with hHdef
  rw [← C161_converges_iff (fun _ => H) (fun _ _ => []) b rep H (fun _ _ => rfl) hsym d s hrep hs]
  have key : ∀ (v : Fin n → ℝ) (est : ∀ T, (Fin rep → Fin T → Equiv.Perm (Fin N)) → Fin n → ℝ),
      (∀ T σ, ihvpLissa hv (drawsAll σ) b rep T d s v = .ok (some (est T σ))) → ∀ T,
      ihvpLissa (fun _ => H) (fun _ _ => []) b rep T d s v = .ok (some (expect (est T))) := by
    intro v est hest T
    obtain ⟨est', h1, h2⟩ := C134_mean (N := N) hv b rep T d s v hrep hs
    have : est T = est' := by
      funext σ
      have := (hest T σ).symm.trans (h1 σ)
      injection this with this
      injection this
    rw [this, h2, ihvpLissa_det (fun _ => H) (fun _ _ => []) b rep T H (fun _ _ => rfl) d s v hrep hs]
    rfl
  refine forall_congr' fun v => ?_
  constructor
  · rintro ⟨est, l, h1, h2⟩
    exact ⟨_, l, key v est h1, h2⟩
  · rintro ⟨x, l, h1, h2⟩
    choose est he using fun T => C134_mean (N := N) hv b rep T d s v hrep hs
    refine ⟨est, l, fun T => (he T).1, ?_⟩
    have : (fun T => expect (est T)) = x := by
      funext T
      have := (key v est (fun T => (he T).1) T).symm.trans (h1 T)
      injection this with this
      injection this
    rwa [this]

/-- The Euclidean norm of a vector. -/
noncomputable def l2 (u : Fin n → ℝ) : ℝ := Real.sqrt (u ⬝ᵥ u)

lemma l2_eq (u : Fin n → ℝ) : l2 u = ‖(WithLp.toLp 2 u : EuclideanSpace ℝ (Fin n))‖ := by
  rw [EuclideanSpace.norm_eq, l2]
  congr 1
  refine Finset.sum_congr rfl fun i _ => ?_
  simp [pow_two]

lemma l2_add (u w : Fin n → ℝ) : l2 (u + w) ≤ l2 u + l2 w := by
  simp only [l2_eq, WithLp.toLp_add]
  exact norm_add_le _ _

lemma l2_smul (c : ℝ) (u : Fin n → ℝ) : l2 (c • u) = |c| * l2 u := by
  simp only [l2_eq, WithLp.toLp_smul, norm_smul, Real.norm_eq_abs]

lemma l2_list_sum (l : List (Fin n → ℝ)) (c : ℝ) (h : ∀ u ∈ l, l2 u ≤ c) : l2 l.sum ≤ l.length * c := by
  induction l with
  | nil => simp [l2]
  | cons a l ih =>
    rw [List.sum_cons, List.length_cons]
    have h1 := h a (by simp)
    have h2 := ih fun u hu => h u (by simp [hu])
    have h3 := l2_add a l.sum
    push_cast
    linarith

/-- One step contracts by `1 - d` when the form of the batch Hessian is between `0` and `2 s (1 - d)`. -/
lemma iterMat_contract (H : Matrix (Fin n) (Fin n) ℝ) (hsym : Hᵀ = H) (d s : ℝ) (hs : 0 < s) (hd1 : d ≤ 1)
    (hlo : ∀ u, 0 ≤ u ⬝ᵥ H *ᵥ u) (hhi : ∀ u, u ⬝ᵥ H *ᵥ u ≤ 2 * s * (1 - d) * (u ⬝ᵥ u)) (u : Fin n → ℝ) :
    l2 (iterMat H d s *ᵥ u) ≤ (1 - d) * l2 u := by
  obtain ⟨U, e, h1, h2, hA, he⟩ := symm_diag _ (iterMat_symm H hsym d s)
  have hb : ∀ i, e i ^ 2 ≤ (1 - d) ^ 2 := by
    intro i
    obtain ⟨w, hw, hHw⟩ := (iterMat_eig H d s _ hs.ne').1 (he i)
    have hpos : 0 < w ⬝ᵥ w := lt_of_le_of_ne (Finset.sum_nonneg fun k _ => mul_self_nonneg _)
      fun h => hw (dotProduct_self_eq_zero.1 h.symm)
    have a := hlo w
    have b := hhi w
    rw [hHw, dotProduct_smul, smul_eq_mul] at a b
    have a' : 0 ≤ s * (1 - d - e i) := nonneg_of_mul_nonneg_left a hpos
    have b' : s * (1 - d - e i) ≤ 2 * s * (1 - d) := le_of_mul_le_mul_right b hpos
    have a2 : 0 ≤ 1 - d - e i := nonneg_of_mul_nonneg_right a' hs
    have b2 : 1 - d - e i ≤ 2 * (1 - d) := by
      have : s * (1 - d - e i) ≤ s * (2 * (1 - d)) := by linarith
      exact le_of_mul_le_mul_left this hs
    exact sq_le_sq' (by linarith) (by linarith)
  have hdot : ∀ w : Fin n → ℝ, (U *ᵥ w) ⬝ᵥ (U *ᵥ w) = w ⬝ᵥ w := by
    intro w
    rw [dotProduct_mulVec, ← mulVec_transpose, mulVec_mulVec, h1, one_mulVec]
  have hu : u = U *ᵥ (Uᵀ *ᵥ u) := by rw [mulVec_mulVec, h2, one_mulVec]
  have hM : iterMat H d s *ᵥ u = U *ᵥ (diagonal e *ᵥ (Uᵀ *ᵥ u)) := by
    rw [mulVec_mulVec, mulVec_mulVec, ← hA]
  unfold l2
  rw [hM, hdot]
  conv_rhs => rw [hu, hdot]
  rw [← Real.sqrt_sq (by linarith : (0 : ℝ) ≤ 1 - d), ← Real.sqrt_mul (sq_nonneg _)]
  apply Real.sqrt_le_sqrt
  unfold dotProduct
  rw [Finset.mul_sum]
  refine Finset.sum_le_sum fun i _ => ?_
  rw [mulVec_diagonal]
  have := mul_le_mul_of_nonneg_right (hb i) (mul_self_nonneg ((Uᵀ *ᵥ u) i))
  linarith [this]

/-- **C161** (every execution). If every batch Hessian is symmetric, positive semidefinite and at most `2 * scaling * (1 - damping)`,
with damping in `(0, 1]` and positive scaling, then for every sequence of draws, every depth, batch size and number of repeats the
result is finite with Euclidean norm at most `|v| / (scaling * damping)`. -/
theorem C161_bounded (hv : List Nat → Matrix (Fin n) (Fin n) ℝ) (hsym : ∀ b, (hv b)ᵀ = hv b) (d s : ℝ) (hs : 0 < s) (hd : 0 < d)
    (hd1 : d ≤ 1) (hlo : ∀ b u, 0 ≤ u ⬝ᵥ hv b *ᵥ u) (hhi : ∀ b u, u ⬝ᵥ hv b *ᵥ u ≤ 2 * s * (1 - d) * (u ⬝ᵥ u))
    (perm : Nat → Nat → List Nat) (bs rep T : Nat) (hrep : 0 < rep) (v : Fin n → ℝ) :
    ∃ x, ihvpLissa hv perm bs rep T d s v = .ok (some x) ∧ Real.sqrt (x ⬝ᵥ x) ≤ Real.sqrt (v ⬝ᵥ v) / (s * d) := by
  refine ⟨_, by simp only [ihvpLissa, if_neg hrep.ne', if_neg hs.ne']; rfl, ?_⟩
  have hrec : ∀ p t, l2 (lissaRec hv p bs d s v t) ≤ l2 v / d := by
    intro p t
    induction t with
    | zero =>
      rw [show lissaRec hv p bs d s v 0 = v from rfl, le_div_iff₀ hd]
      have : 0 ≤ l2 v := Real.sqrt_nonneg _
      nlinarith
    | succ t ih =>
      rw [lissaRec_succ]
      have h1 := l2_add v (iterMat (hv (sampleBatch (p t) bs)) d s *ᵥ lissaRec hv p bs d s v t)
      have h2 := iterMat_contract (hv (sampleBatch (p t) bs)) (hsym _) d s hs hd1 (hlo _) (hhi _) (lissaRec hv p bs d s v t)
      have h3 := mul_le_mul_of_nonneg_left ih (by linarith : (0 : ℝ) ≤ 1 - d)
      have h4 : l2 v + (1 - d) * (l2 v / d) = l2 v / d := by field_simp; ring
      linarith
  have hr : (0 : ℝ) < rep := by exact_mod_cast hrep
  change l2 _ ≤ l2 v / (s * d)
  rw [l2_smul, abs_of_pos (inv_pos.2 hr)]
  have h5 := l2_list_sum ((List.range rep).map fun r => (1 / s) • lissaRec hv (perm r) bs d s v T) (l2 v / (s * d)) (by
    intro u hu
    obtain ⟨r, _, rfl⟩ := List.mem_map.1 hu
    rw [l2_smul, abs_of_pos (by positivity)]
    have := mul_le_mul_of_nonneg_left (hrec (perm r) T) (by positivity : (0 : ℝ) ≤ 1 / s)
    have e : 1 / s * (l2 v / d) = l2 v / (s * d) := by field_simp
    linarith)
  rw [List.length_map, List.length_range] at h5
  rw [inv_mul_le_iff₀ hr]
  exact h5

/-- Batch Hessians that are the batch size (at most two samples), scaling 4, damping 1/2. -/
example : ∀ b : Fin 3, ∀ u : Fin 1 → ℝ, 0 ≤ u ⬝ᵥ (!![(b : ℝ)] : Matrix (Fin 1) (Fin 1) ℝ) *ᵥ u ∧
    u ⬝ᵥ (!![(b : ℝ)] : Matrix (Fin 1) (Fin 1) ℝ) *ᵥ u ≤ 2 * 4 * (1 - 1 / 2) * (u ⬝ᵥ u) := by
  intro b u
  have hb : (b : ℝ) ≤ 2 := by exact_mod_cast (by have := b.2; omega : (b : ℕ) ≤ 2)
  have hb0 : (0 : ℝ) ≤ (b : ℝ) := Nat.cast_nonneg _
  have hu := mul_self_nonneg (u 0)
  simp [mulVec, dotProduct]
  constructor
  · nlinarith
  · nlinarith

/-- A diverging case: Hessian `3`, scaling `1`, damping `0` (`1 - 3 = -2`); the condition fails. -/
example : ¬ ∀ μ, IsEig (!![3] : Matrix (Fin 1) (Fin 1) ℝ) μ → 0 < μ ∧ μ < 2 * 1 := by
  intro h
  have := h 3 ⟨![1], by simp, by funext i; fin_cases i; simp [mulVec, dotProduct]⟩
  linarith [this.2]

/-- A converging case: Hessian `1`, scaling `1`. -/
example : ∀ μ, IsEig (!![1] : Matrix (Fin 1) (Fin 1) ℝ) μ → 0 < μ ∧ μ < 2 * 1 := by
  rintro μ ⟨u, hu, h⟩
  have h0 := congrFun h 0
  have hu0 : u 0 ≠ 0 := fun h0 => hu (by funext i; fin_cases i; exact h0)
  simp [mulVec, dotProduct] at h0
  have : μ = 1 := by
    have : (μ - 1) * u 0 = 0 := by linarith
    rcases mul_eq_zero.1 this with h | h
    · linarith
    · exact absurd h hu0
  subst this
  norm_num

end Verif.Hessian
