import Verif.TracIn.ProjRandProps
import Mathlib.Algebra.MvPolynomial.Equiv
import Mathlib.Algebra.MvPolynomial.Rename
import Mathlib.Algebra.MvPolynomial.Funext
import Mathlib.Topology.Algebra.MvPolynomial
import Mathlib.LinearAlgebra.Matrix.ToLin
import Mathlib.LinearAlgebra.Basis.VectorSpace

/-!
# Lemmas for C239: polynomials in independent continuous variables, and independent rows
-/

namespace Verif.TRAK

open MeasureTheory ProbabilityTheory Verif.Projection

/-- A polynomial that is not zero takes the value zero with probability zero if the variables are independent and without atoms. -/
lemma poly_null {μ : Measure ℝ} [IsProbabilityMeasure μ] [NullSingletonClass μ] : ∀ (n : ℕ) (P : MvPolynomial (Fin n) ℝ), P ≠ 0 →
    (Measure.pi fun _ : Fin n => μ) {x | MvPolynomial.eval x P = 0} = 0
  | 0, P, hP => by
    have : {x : Fin 0 → ℝ | MvPolynomial.eval x P = 0} = ∅ := by
      refine Set.eq_empty_iff_forall_notMem.2 fun x hx => hP ?_
      refine MvPolynomial.funext fun y => ?_
      rw [Subsingleton.elim y x, map_zero]
      exact hx
    rw [this, measure_empty]
  | n + 1, P, hP => by
    have hmeas : MeasurableSet {x : Fin (n + 1) → ℝ | MvPolynomial.eval x P = 0} :=
      measurableSet_eq_fun (MvPolynomial.continuous_eval P).measurable measurable_const
    have hF : MvPolynomial.finSuccEquiv ℝ n P ≠ 0 := fun h => hP ((MvPolynomial.finSuccEquiv ℝ n).injective (by rw [h, map_zero]))
    have hL : (MvPolynomial.finSuccEquiv ℝ n P).leadingCoeff ≠ 0 := Polynomial.leadingCoeff_ne_zero.2 hF
    have ih := poly_null (μ := μ) n _ hL
    have hmp := (measurePreserving_piFinSuccAbove (fun _ : Fin (n + 1) => μ) 0).symm
    rw [← hmp.measure_preimage_equiv, Measure.prod_apply_symm ((MeasurableEquiv.measurable _) hmeas), lintegral_eq_zero_iff]
    · have hae : ∀ᵐ s ∂(Measure.pi fun _ : Fin n => μ), MvPolynomial.eval s (MvPolynomial.finSuccEquiv ℝ n P).leadingCoeff ≠ 0 := by
        rw [ae_iff]
        simpa using ih
      filter_upwards [hae] with s hs
      have hne : Polynomial.map (MvPolynomial.eval s) (MvPolynomial.finSuccEquiv ℝ n P) ≠ 0 := by
        intro h
        have := congrArg (fun q => Polynomial.coeff q (MvPolynomial.finSuccEquiv ℝ n P).natDegree) h
        simp only [Polynomial.coeff_map, Polynomial.coeff_zero] at this
        exact hs this
      refine Set.Finite.measure_zero ?_ μ
      refine (Polynomial.finite_setOfPred_isRoot hne).subset fun y hy => ?_
      have h1 : MvPolynomial.eval (Fin.cons y s : Fin (n + 1) → ℝ) P = 0 := by
        have : ((MeasurableEquiv.piFinSuccAbove (fun _ : Fin (n + 1) => ℝ) 0).symm (y, s)) = (Fin.cons y s : Fin (n + 1) → ℝ) := by
          funext i
          refine Fin.cases ?_ (fun j => ?_) i <;> simp [MeasurableEquiv.piFinSuccAbove, Fin.insertNthEquiv]
        rw [← this]
        exact hy
      rw [MvPolynomial.eval_eq_eval_mv_eval'] at h1
      exact h1
    · exact measurable_measure_prodMk_right ((MeasurableEquiv.measurable _) hmeas)

/-- The same for finitely many of the numbers that fill the projection matrices. -/
lemma poly_ae {σ : Type} [Fintype σ] (π : σ → ℤ × ℕ × ℕ) (hπ : Function.Injective π) (P : MvPolynomial σ ℝ) (hP : P ≠ 0) :
    ∀ᵐ G ∂(TracIn.noise .normal), MvPolynomial.eval (fun q => G (π q)) P ≠ 0 := by
  have e := Fintype.equivFin σ
  let Q := MvPolynomial.rename e P
  have hQ : Q ≠ 0 := fun h => hP (MvPolynomial.rename_injective e e.injective (by rw [map_zero]; exact h))
  have hind : iIndepFun (fun (i : Fin (Fintype.card σ)) (G : ℤ × ℕ × ℕ → ℝ) => G (π (e.symm i))) (TracIn.noise .normal) :=
    (iIndepFun_infinitePi (X := fun _ x => x) fun _ => measurable_id).precomp (hπ.comp e.symm.injective)
  have hmap := (iIndepFun_iff_map_fun_eq_pi_map fun i => (measurable_pi_apply (π (e.symm i))).aemeasurable).1 hind
  have hlaw : ∀ i : Fin (Fintype.card σ), (TracIn.noise .normal).map (fun G : ℤ × ℕ × ℕ → ℝ => G (π (e.symm i))) = gaussianReal 0 1 := fun i =>
    (measurePreserving_eval_infinitePi _ (π (e.symm i))).map_eq
  simp only [hlaw] at hmap
  have : NullSingletonClass (gaussianReal 0 1) := nullSingletonClass_gaussianReal one_ne_zero
  have h0 := poly_null (μ := gaussianReal 0 1) _ Q hQ
  rw [← hmap, Measure.map_apply (measurable_pi_lambda _ fun i => measurable_pi_apply _)
    (measurableSet_eq_fun (MvPolynomial.continuous_eval Q).measurable measurable_const)] at h0
  rw [ae_iff]
  refine (measure_mono ?_).trans h0.le |>.antisymm (zero_le)
  intro G hG
  simp only [ne_eq, not_not, Set.mem_ofPred_eq, Set.mem_preimage] at hG ⊢
  rw [MvPolynomial.eval_rename]
  rw [← hG]
  congr 2
  funext q
  simp

/-- Independent rows have a dual matrix. -/
lemma exists_dual {D p : ℕ} (g : Fin p → Fin D → ℝ) (h : LinearIndependent ℝ g) :
    ∃ W : Fin D × Fin p → ℝ, ∀ j k, ∑ a, g j a * W (a, k) = if j = k then 1 else 0 := by
  have hinj : Function.Injective (Matrix.vecMulLinear (Matrix.of g)) := Matrix.vecMul_injective_iff.2 h
  obtain ⟨L, hL⟩ := LinearMap.exists_leftInverse_of_injective _ (LinearMap.ker_eq_bot.2 hinj)
  refine ⟨fun q => L (Pi.single q.1 1) q.2, fun j k => ?_⟩
  have h1 : L (g j) = Pi.single j 1 := by
    have := LinearMap.congr_fun hL (Pi.single j 1)
    simpa using this
  have h2 : g j = ∑ a, g j a • (Pi.single a (1 : ℝ) : Fin D → ℝ) := by
    funext b
    simp [Finset.sum_apply, Pi.single_apply]
  have h3 : L (g j) k = ∑ a, g j a * L (Pi.single a 1) k := by
    conv_lhs => rw [h2, map_sum]
    simp [Finset.sum_apply]
  rw [← h3, h1, Pi.single_apply]
  simp [eq_comm]

end Verif.TRAK
