import Verif.Bench.LogRegModel
import Verif.Attr.ConvexProps
import Mathlib.Analysis.SpecialFunctions.Log.Deriv
import Mathlib.Analysis.SpecialFunctions.ExpDeriv
import Mathlib.Analysis.Convex.SpecificFunctions.Basic

/-! # C145: influence scores of the logistic regression benchmark -/

namespace Verif.LogReg

open Topology

variable {n c : ℕ}

/-! ### Helper lemmas -/

theorem sum_exp_pos (z : Fin c → ℝ) (k : Fin c) : 0 < ∑ u, Real.exp (z u) :=
  Finset.sum_pos (fun _ _ => Real.exp_pos _) ⟨k, Finset.mem_univ _⟩

/-- `log Σ exp` is convex. -/
theorem logsumexp_convex (z w : Fin c → ℝ) (a b : ℝ) (ha : 0 ≤ a) (hb : 0 ≤ b) (hab : a + b = 1) (k : Fin c) :
    Real.log (∑ u, Real.exp (a * z u + b * w u)) ≤ a * Real.log (∑ u, Real.exp (z u)) + b * Real.log (∑ u, Real.exp (w u)) := by
  set S := Real.log (∑ u, Real.exp (z u)) with hS
  set T := Real.log (∑ u, Real.exp (w u)) with hT
  have h1 : ∀ u, Real.exp (a * (z u - S) + b * (w u - T)) ≤ a * Real.exp (z u - S) + b * Real.exp (w u - T) := fun u =>
    convexOn_exp.2 (Set.mem_univ _) (Set.mem_univ _) ha hb hab
  have hs : ∑ u, Real.exp (z u - S) = 1 := by
    simp_rw [Real.exp_sub]
    rw [← Finset.sum_div, hS, Real.exp_log (sum_exp_pos z k)]
    exact div_self (sum_exp_pos z k).ne'
  have ht : ∑ u, Real.exp (w u - T) = 1 := by
    simp_rw [Real.exp_sub]
    rw [← Finset.sum_div, hT, Real.exp_log (sum_exp_pos w k)]
    exact div_self (sum_exp_pos w k).ne'
  have h2 : ∑ u, Real.exp (a * (z u - S) + b * (w u - T)) ≤ 1 := by
    refine (Finset.sum_le_sum fun u _ => h1 u).trans ?_
    rw [Finset.sum_add_distrib, ← Finset.mul_sum, ← Finset.mul_sum, hs, ht]
    linarith
  have h3 : ∑ u, Real.exp (a * z u + b * w u) = Real.exp (a * S + b * T) * ∑ u, Real.exp (a * (z u - S) + b * (w u - T)) := by
    rw [Finset.mul_sum]
    refine Finset.sum_congr rfl fun u _ => ?_
    rw [← Real.exp_add]
    congr 1
    ring
  have h4 : ∑ u, Real.exp (a * z u + b * w u) ≤ Real.exp (a * S + b * T) := by
    rw [h3]
    exact mul_le_of_le_one_right (Real.exp_pos _).le h2
  exact (Real.log_le_iff_le_exp (sum_exp_pos _ k)).2 h4

theorem logits_comb (x : Fin n → ℝ) (a b : ℝ) (θ η : Fin (c * n + c) → ℝ) (k : Fin c) :
    logits (a • θ + b • η) x k = a * logits θ x k + b * logits η x k := by
  unfold logits
  simp only [Pi.add_apply, Pi.smul_apply, smul_eq_mul, mul_add, Finset.mul_sum]
  rw [show ∀ p q r s : ℝ, p + q + (r + s) = (p + r) + (q + s) from fun p q r s => by ring, ← Finset.sum_add_distrib]
  have : ∀ j, (a * θ (Fin.castAdd c (finProdFinEquiv (k, j))) + b * η (Fin.castAdd c (finProdFinEquiv (k, j)))) * x j =
      a * (θ (Fin.castAdd c (finProdFinEquiv (k, j))) * x j) + b * (η (Fin.castAdd c (finProdFinEquiv (k, j))) * x j) := fun j => by ring
  simp_rw [this]

theorem sampleLoss_nonneg (θ : Fin (c * n + c) → ℝ) (s : Sample n c) : 0 ≤ sampleLoss θ s := by
  unfold sampleLoss logSoftmax
  have h1 : Real.exp (logits θ s.1 s.2) ≤ ∑ u, Real.exp (logits θ s.1 u) :=
    Finset.single_le_sum (f := fun u => Real.exp (logits θ s.1 u)) (fun _ _ => (Real.exp_pos _).le) (Finset.mem_univ _)
  have h2 := (Real.le_log_iff_exp_le (sum_exp_pos (logits θ s.1) s.2)).2 h1
  linarith

theorem sampleLoss_convex (s : Sample n c) : ConvexOn ℝ Set.univ fun θ : Fin (c * n + c) → ℝ => sampleLoss θ s := by
  refine ⟨convex_univ, fun θ _ η _ a b ha hb hab => ?_⟩
  have h := logsumexp_convex (logits θ s.1) (logits η s.1) a b ha hb hab s.2
  show sampleLoss (a • θ + b • η) s ≤ a * sampleLoss θ s + b * sampleLoss η s
  unfold sampleLoss logSoftmax
  simp_rw [logits_comb]
  linarith

theorem sampleLoss_smooth (s : Sample n c) : ContDiff ℝ 2 fun θ : Fin (c * n + c) → ℝ => sampleLoss θ s := by
  have hl : ∀ k, ContDiff ℝ 2 fun θ : Fin (c * n + c) → ℝ => logits θ s.1 k := by
    intro k
    unfold logits
    fun_prop
  unfold sampleLoss logSoftmax
  refine ((hl s.2).sub (ContDiff.log (ContDiff.sum fun u _ => (hl u).exp) fun θ => ?_)).neg
  exact (sum_exp_pos _ s.2).ne'

theorem convexMean : Attr.ConvexMean (p := c * n + c) batchLoss (sampleLoss (n := n) (c := c)) :=
  ⟨fun _ _ => rfl, sampleLoss_nonneg, sampleLoss_smooth, sampleLoss_convex⟩

/-! ### Specification -/

/-- The negative log-likelihood of the sample's label. -/
noncomputable def negLogLik (θ : Fin (c * n + c) → ℝ) (s : Sample n c) : ℝ :=
  -Real.log (Real.exp (logits θ s.1 s.2) / ∑ u, Real.exp (logits θ s.1 u))

/-- The regularised training objective: mean negative log-likelihood, L2 penalty, and additional weight `ε` of the sample `x`. -/
noncomputable def trainObjective (reg : ℝ) (data : List (Sample n c)) (x : Sample n c) (ε : ℝ) (θ : Fin (c * n + c) → ℝ) : ℝ :=
  (data.map (negLogLik θ)).sum / data.length + reg / 2 * ∑ k, θ k ^ 2 + ε * negLogLik θ x

theorem negLogLik_eq (θ : Fin (c * n + c) → ℝ) (s : Sample n c) : negLogLik θ s = sampleLoss θ s := by
  unfold negLogLik sampleLoss logSoftmax
  rw [Real.log_div (Real.exp_pos _).ne' (sum_exp_pos _ s.2).ne', Real.log_exp]

theorem trainObjective_eq (reg : ℝ) (data : List (Sample n c)) (x : Sample n c) (ε : ℝ) :
    trainObjective reg data x ε = Attr.objective batchLoss reg data x ε := by
  funext θ
  unfold trainObjective Attr.objective batchLoss
  simp [negLogLik_eq, show negLogLik θ = sampleLoss θ from funext (negLogLik_eq θ)]

/-! ### C145 -/

/-- **C145.** Influence attribution of the logistic regression benchmark, with the loss of the test samples as the target and any positive
regularisation: the regularised model is unique, attributing at it succeeds and entry `(i, j)` is minus the derivative of the test loss of
sample `j` of the retrained model with respect to the weight of training sample `i`. Nothing is assumed about the data. -/
theorem C145_logistic_regression (reg : ℝ) (hr : 0 < reg) (data te : List (Sample n c)) (bs bs1 bs2 : ℕ) (hd : data ≠ [])
    (hbs : data.length ≤ bs) (h1 : 0 < bs1) (h2 : 0 < bs2) :
    ∃ θ, (∀ x t, t ≠ θ → trainObjective reg data x 0 θ < trainObjective reg data x 0 t) ∧
      ∃ M, (Attr.attribute' (Attr.taskSub batchLoss (fun θ y => batchLoss θ [y]) reg) [θ] (some ⟨data, bs, true⟩) none
          ⟨data, bs1, true⟩ ⟨te, bs2, true⟩).2 = .ok M ∧
        ∀ i (hi : i < data.length) j (hj : j < te.length),
          (∀ᶠ ε in 𝓝 (0 : ℝ), ∃ θ', ∀ t, t ≠ θ' → trainObjective reg data data[i] ε θ' < trainObjective reg data data[i] ε t) ∧
          ∀ φ : ℝ → Fin (c * n + c) → ℝ,
            (∀ᶠ ε in 𝓝 (0 : ℝ), ∀ t, t ≠ φ ε → trainObjective reg data data[i] ε (φ ε) < trainObjective reg data data[i] ε t) →
            φ 0 = θ ∧ HasDerivAt (fun ε => negLogLik (φ ε) te[j]) (-M.f i j) 0 := by
  have hT : ∀ y ∈ te, Differentiable ℝ fun θ => batchLoss θ [y] := fun y _ =>
    (convexMean.loss_smooth [y]).differentiable (by norm_num)
  obtain ⟨θ, a, M, e, f⟩ := Attr.C144_scores_are_retraining_derivatives convexMean (fun θ y => batchLoss θ [y]) reg hr data te bs bs1 bs2 hd hbs h1 h2 hT
  refine ⟨θ, fun x t ht => ?_, M, e, fun i hi j hj => ?_⟩
  · rw [trainObjective_eq]
    exact a x t ht
  · obtain ⟨p, q⟩ := f i hi j hj
    simp only [trainObjective_eq]
    refine ⟨p, fun φ hφ => ?_⟩
    have := q φ hφ
    simpa [convexMean.single, negLogLik_eq] using this

/-! ### C146 -/

/-- Adding the same number to all biases. -/
def shift : Fin (c * n + c) → ℝ := fun k => if c * n ≤ k.val then 1 else 0

theorem logits_shift (θ : Fin (c * n + c) → ℝ) (a : ℝ) (x : Fin n → ℝ) (k : Fin c) : logits (θ + a • shift) x k = logits θ x k + a := by
  have h1 : ∀ j, shift (n := n) (c := c) (Fin.castAdd c (finProdFinEquiv (k, j))) = 0 := fun j => by
    unfold shift
    rw [if_neg]
    rw [Fin.val_castAdd]
    exact not_le.2 (finProdFinEquiv (k, j)).2
  have h2 : shift (n := n) (c := c) (Fin.natAdd (c * n) k) = 1 := by
    unfold shift
    rw [if_pos]
    simp
  unfold logits
  simp only [Pi.add_apply, Pi.smul_apply, smul_eq_mul, h1, h2]
  simp
  ring

theorem sampleLoss_shift (θ : Fin (c * n + c) → ℝ) (a : ℝ) (s : Sample n c) : sampleLoss (θ + a • shift) s = sampleLoss θ s := by
  unfold sampleLoss logSoftmax
  simp_rw [logits_shift, Real.exp_add]
  rw [← Finset.sum_mul, Real.log_mul (sum_exp_pos _ s.2).ne' (Real.exp_pos _).ne', Real.log_exp]
  ring

theorem batchLoss_shift (θ : Fin (c * n + c) → ℝ) (a : ℝ) (b : List (Sample n c)) : batchLoss (θ + a • shift) b = batchLoss θ b := by
  unfold batchLoss
  rw [show sampleLoss (θ + a • shift) = sampleLoss (n := n) (c := c) θ from funext (sampleLoss_shift θ a)]

theorem hess_shift (θ : Fin (c * n + c) → ℝ) (b : List (Sample n c)) :
    Matrix.mulVec (Attr.hessAt (fun t => batchLoss t b) θ) shift = 0 := by
  have hg : ∀ a : ℝ, Attr.gradAt (fun t => batchLoss t b) (θ + a • shift) = Attr.gradAt (fun t => batchLoss t b) θ := by
    intro a
    funext k
    have h := fderiv_comp_add_right (𝕜 := ℝ) (f := fun t => batchLoss t b) (x := θ) (a • shift)
    have h2 : (fun t => batchLoss (t + a • shift) b) = fun t => batchLoss t b := funext fun t => batchLoss_shift t a b
    rw [h2] at h
    unfold Attr.gradAt
    rw [← h]
  have hs : ContDiffAt ℝ 2 (fun t => batchLoss t b) θ := (convexMean.loss_smooth b).contDiffAt
  have hl : HasDerivAt (fun a : ℝ => θ + a • (shift : Fin (c * n + c) → ℝ)) shift 0 := by
    have := ((hasDerivAt_id (0 : ℝ)).smul_const (shift : Fin (c * n + c) → ℝ)).const_add θ
    simpa using this
  have hd : HasFDerivAt (Attr.gradAt fun t => batchLoss t b) (fderiv ℝ (Attr.gradAt fun t => batchLoss t b) θ) (θ + (0 : ℝ) • shift) := by
    simpa using (Attr.gradAt_strict hs).hasFDerivAt
  have h1 := hd.comp_hasDerivAt 0 hl
  rw [Attr.fderiv_gradAt hs] at h1
  have h2 : (Attr.gradAt fun t => batchLoss t b) ∘ (fun a : ℝ => θ + a • shift) = fun _ => Attr.gradAt (fun t => batchLoss t b) θ := funext hg
  rw [h2] at h1
  exact h1.unique (hasDerivAt_const _ _)

/-- **C146.** With the default `regularization=0.0` the explicit attributor cannot be used with the logistic regression benchmark: whatever the
checkpoint and the data, the Hessian of every batch is singular, and transforming any test representation raises. -/
theorem C146_default_regularisation_raises (hc : 0 < c) (θ : Fin (c * n + c) → ℝ) (full : Loader (Sample n c)) (hs : full.supported = true)
    (hb : 0 < full.nb) (v : Fin (c * n + c) → ℝ) :
    (∀ b, (Attr.hessAt (fun t => batchLoss t b) θ).det = 0) ∧
    Attr.explicitTransTest (fun θ b => Attr.hessAt (fun t => batchLoss t b) θ) 0 θ full v = .error .runtimeError := by
  have hdet : ∀ b : List (Sample n c), (Attr.hessAt (fun t => batchLoss t b) θ).det = 0 := by
    intro b
    refine Matrix.exists_mulVec_eq_zero_iff.1 ⟨shift, fun h => ?_, hess_shift θ b⟩
    have := congrFun h (Fin.natAdd (c * n) ⟨0, hc⟩)
    simp [shift] at this
  refine ⟨hdet, ?_⟩
  exact Attr.C08_explicit_singular_raises _ 0 θ full v hs 0 hb (by simpa using hdet _)

/-- **C146.** Every positive regularisation repairs this, for every checkpoint and every batch. -/
theorem C146_positive_regularisation (θ : Fin (c * n + c) → ℝ) (b : List (Sample n c)) (reg : ℝ) (hr : 0 < reg) :
    (Attr.hessAt (fun t => batchLoss t b) θ + reg • (1 : Matrix (Fin (c * n + c)) (Fin (c * n + c)) ℝ)).det ≠ 0 :=
  Attr.convex_det (convexMean.loss_smooth b) (convexMean.loss_convex b) θ hr

example : (0 : ℕ) < 10 ∧ (⟨[(fun _ => 1, 3)], 4, true⟩ : Loader (Sample 2 10)).supported = true ∧
    0 < (⟨[(fun _ => 1, 3)], 4, true⟩ : Loader (Sample 2 10)).nb := ⟨by norm_num, rfl, by decide⟩

/-- A case meeting the hypotheses: two classes, one input, linearly separated data, for which the unregularised model does not exist. -/
example : ∃ data te : List (Sample 1 2), data ≠ [] ∧ data.length ≤ 2 ∧ te ≠ [] ∧ (0 : ℝ) < 0.01 :=
  ⟨[(fun _ => -1, 0), (fun _ => 1, 1)], [(fun _ => 2, 1)], by simp, by simp, by simp, by norm_num⟩

end Verif.LogReg
