import Verif.TRAK.OddsProps
import Verif.TRAK.Props
import Mathlib.Analysis.Calculus.FDeriv.Add
import Mathlib.Analysis.Calculus.FDeriv.Linear

/-!
# C201: TRAK scores with the log-odds output function
-/

namespace Verif.TRAKOdds

open Matrix Verif Verif.TRAK

variable {X C E : Type} {d : ℕ} [NormedAddCommGroup E] [NormedSpace ℝ E]

/-- The gradient of the output, for every sample. -/
theorem out_fderiv (L : E → ℝ) (θ : E) (hd : DifferentiableAt ℝ L θ) (hpos : 0 < L θ) (F : ℝ → ℝ)
    (hF : ∀ l, 0 < l → logOdds l = .real (F l)) :
    fderiv ℝ (fun θ' => F (L θ')) θ = -((1 - correctProb (L θ))⁻¹ • fderiv ℝ L θ) := by
  obtain ⟨F', h1, h2, -⟩ := C201_gradient L _ θ hd.hasFDerivAt hpos (fun θ' => F (L θ')) (fun θ' h => hF _ h)
  rw [h1.fderiv, h2]

/-- **C201** (scores). One checkpoint `θ`, output function and correct probability formed from the loss `L x` of a sample as documented, features that are a linear
projection `P` of the gradients of the output function: the score of a training and a test sample is the product of their projected *loss* gradients, in
the inverse kernel, divided by one minus the correct probability of the test sample. That of the training sample is only in the kernel, where sample `k`
weighs `1 / (1 - pₖ)²`. -/
theorem C201_scores (A : Attributor ℝ X C d) (c : C) (hA : A.ckpts = [c]) (hreg : 0 < A.reg) (st : State ℝ X d) (hst : st.full = none) (tr te : Loader X)
    (b1 : 0 < tr.bs) (b2 : 0 < te.bs) (s1 : tr.supported = true) (s2 : te.supported = true) (n1 : tr.data ≠ []) (n2 : te.data ≠ [])
    (θ : E) (L : X → E → ℝ) (P : (E →L[ℝ] ℝ) →ₗ[ℝ] (Fin d → ℝ)) (F : ℝ → ℝ) (hF : ∀ l, 0 < l → logOdds l = .real (F l))
    (hd : ∀ x, DifferentiableAt ℝ (L x) θ) (hpos : ∀ x, 0 < L x θ)
    (hφ : ∀ x, A.phiLoss c x = P (fderiv ℝ (fun θ' => F (L x θ')) θ)) (hψ : ∀ x, A.phiTarget c x = P (fderiv ℝ (fun θ' => F (L x θ')) θ))
    (hp : ∀ x, A.prob c x = correctProb (L x θ)) :
    ∃ M, attribute' A st te (some tr) = .ok M ∧ ∀ i (hi : i < tr.data.length) j (hj : j < te.data.length),
      M.f i j = (1 - correctProb (L te.data[j] θ))⁻¹ *
        (P (fderiv ℝ (L te.data[j]) θ) ⬝ᵥ ((A.reg • (1 : Matrix (Fin d) (Fin d) ℝ) + ∑ k : Fin tr.data.length,
          ((1 - correctProb (L tr.data[k] θ)) ^ 2)⁻¹ • vecMulVec (P (fderiv ℝ (L tr.data[k]) θ)) (P (fderiv ℝ (L tr.data[k]) θ)))⁻¹ *ᵥ
            P (fderiv ℝ (L tr.data[i]) θ))) := by
  obtain ⟨M, h1, -, -, h4⟩ := C13_trak_entry A st hst tr te b1 b2 s1 s2 n1 n2 (by simp [hA])
    (fun c _ => C13_gram_nonsingular A.reg hreg _ _)
  refine ⟨M, h1, fun i hi j hj => ?_⟩
  have hout : ∀ x, P (fderiv ℝ (fun θ' => F (L x θ')) θ) = -((1 - correctProb (L x θ))⁻¹ • P (fderiv ℝ (L x) θ)) := fun x => by
    rw [out_fderiv (L x) θ (hd x) (hpos x) F hF, map_neg, map_smul]
  have hne : ∀ x, 1 - correctProb (L x θ) ≠ 0 := fun x => by
    have := exp_neg_lt_one (hpos x)
    rw [correctProb]; linarith
  have hk : gram A.reg tr.data.length (feat A c tr.data) = A.reg • (1 : Matrix (Fin d) (Fin d) ℝ) + ∑ k : Fin tr.data.length,
      ((1 - correctProb (L tr.data[k] θ)) ^ 2)⁻¹ • vecMulVec (P (fderiv ℝ (L tr.data[k]) θ)) (P (fderiv ℝ (L tr.data[k]) θ)) := by
    rw [gram, add_comm]
    congr 1
    ext a b
    rw [Matrix.mul_apply, Matrix.sum_apply]
    refine Finset.sum_congr rfl fun k _ => ?_
    simp only [feat, hφ, hout, Fin.getElem_fin, Matrix.transpose_apply, Matrix.smul_apply, vecMulVec_apply, Pi.neg_apply, Pi.smul_apply, smul_eq_mul]
    have := hne tr.data[(k : ℕ)]
    field_simp
  rw [h4 i hi j hj, hA]
  simp only [List.map_cons, List.map_nil, List.sum_cons, List.sum_nil, add_zero, List.length_singleton, Nat.cast_one, div_one]
  rw [hk, hφ, hψ, hp, hout, hout, mulVec_neg, mulVec_smul, neg_dotProduct, dotProduct_neg, neg_neg, smul_dotProduct, dotProduct_smul]
  have := hne tr.data[i]
  simp only [smul_eq_mul]
  field_simp

/-- The hypotheses can be met: parameters are numbers, the loss of sample `x` is `x² + 1 + θ`, at the checkpoint `θ = 0`. -/
example : ∃ (A : Attributor ℝ ℝ Unit 1) (L : ℝ → ℝ → ℝ) (P : (ℝ →L[ℝ] ℝ) →ₗ[ℝ] (Fin 1 → ℝ)) (F : ℝ → ℝ),
    (∀ l, 0 < l → logOdds l = .real (F l)) ∧ (∀ x, DifferentiableAt ℝ (L x) 0) ∧ (∀ x, 0 < L x 0) ∧
    (∀ x, A.phiLoss () x = P (fderiv ℝ (fun θ' => F (L x θ')) 0)) ∧ (∀ x, A.phiTarget () x = P (fderiv ℝ (fun θ' => F (L x θ')) 0)) ∧
    (∀ x, A.prob () x = correctProb (L x 0)) ∧ A.ckpts = [()] ∧ 0 < A.reg :=
  ⟨⟨fun _ x _ => fderiv ℝ (fun θ' => odds (x ^ 2 + 1 + θ')) 0 1, fun _ x _ => fderiv ℝ (fun θ' => odds (x ^ 2 + 1 + θ')) 0 1,
      fun _ x => correctProb (x ^ 2 + 1 + 0), [()], 1⟩,
    fun x θ => x ^ 2 + 1 + θ, LinearMap.pi fun _ => (ContinuousLinearMap.apply ℝ ℝ (1 : ℝ)).toLinearMap, odds,
    fun _ h => logOdds_pos h, fun x => by fun_prop, fun x => by positivity, fun x => by ext; rfl, fun x => by ext; rfl, fun _ => rfl, rfl, one_pos⟩

end Verif.TRAKOdds
