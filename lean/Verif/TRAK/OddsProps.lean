import Verif.TRAK.OddsModel
import Mathlib.Analysis.SpecialFunctions.Log.Deriv
import Mathlib.Analysis.SpecialFunctions.ExpDeriv
import Mathlib.Analysis.InnerProductSpace.Basic
import Mathlib.Tactic.Linarith
import Mathlib.Tactic.FieldSimp
import Mathlib.Tactic.LinearCombination
import Mathlib.Tactic.Module

/-!
# C201: the log-odds function and the correct probability of TRAK belong together
-/

namespace Verif.TRAKOdds

open Real

/-! ## Lemmas -/

theorem exp_neg_lt_one {l : ℝ} (h : 0 < l) : Real.exp (-l) < 1 := by
  rw [Real.exp_lt_one_iff]; linarith

theorem logOdds_pos {l : ℝ} (h : 0 < l) :
    logOdds l = .real (-l - Real.log (1 - Real.exp (-l))) := by
  have := exp_neg_lt_one h
  rw [logOdds, if_pos (by linarith)]

/-- The number computed for a positive loss. -/
noncomputable def odds (l : ℝ) : ℝ := -l - Real.log (1 - Real.exp (-l))

theorem odds_deriv {l : ℝ} (h : 0 < l) :
    HasDerivAt odds (-(1 - Real.exp (-l))⁻¹) l := by
  have hp := exp_neg_lt_one h
  have hne : (1 - Real.exp (-l)) ≠ 0 := by linarith
  have h1 : HasDerivAt (fun x : ℝ => -x) (-1) l := hasDerivAt_neg l
  have h2 : HasDerivAt (fun x : ℝ => Real.exp (-x)) (Real.exp (-l) * (-1)) l := h1.exp
  have h3 : HasDerivAt (fun x : ℝ => 1 - Real.exp (-x)) (-(Real.exp (-l) * (-1))) l :=
    h2.const_sub 1
  have h4 := h1.sub (h3.log hne)
  have e : -1 - -(Real.exp (-l) * -1) / (1 - Real.exp (-l)) = -(1 - Real.exp (-l))⁻¹ := by
    field_simp
    ring
  rw [← e]
  exact h4

theorem odds_eq_log {l : ℝ} (h : 0 < l) :
    odds l = Real.log (Real.exp (-l) / (1 - Real.exp (-l))) := by
  have := exp_neg_lt_one h
  rw [Real.log_div (Real.exp_ne_zero _) (by linarith), Real.log_exp, odds]

theorem exp_odds {l : ℝ} (h : 0 < l) :
    Real.exp (odds l) = Real.exp (-l) / (1 - Real.exp (-l)) := by
  have := exp_neg_lt_one h
  rw [odds_eq_log h, Real.exp_log]
  exact div_pos (Real.exp_pos _) (by linarith)

/-- Any function giving the numbers computed has the same derivative. -/
theorem out_deriv (F : ℝ → ℝ) (hF : ∀ l, 0 < l → logOdds l = .real (F l)) {l : ℝ} (h : 0 < l) :
    HasDerivAt F (-(1 - Real.exp (-l))⁻¹) l := by
  refine (odds_deriv h).congr_of_eventuallyEq ?_
  filter_upwards [lt_mem_nhds h] with l' h'
  have := hF l' h'
  rw [logOdds_pos h'] at this
  injection this with this
  exact this.symm

/-! ## Theorems -/

/-- A positive loss gives the logarithm of the odds of the correct probability, and the
logistic function of it is the correct probability; a loss of exactly zero gives infinity,
a negative one not-a-number. -/
theorem C201_value (l : ℝ) :
    (0 < l → ∃ x, logOdds l = .real x ∧ x = Real.log (correctProb l / (1 - correctProb l)) ∧
      (1 + Real.exp (-x))⁻¹ = correctProb l ∧ 0 < correctProb l ∧ correctProb l < 1) ∧
    (l = 0 → logOdds l = .posInf ∧ correctProb l = 1) ∧
    (l < 0 → logOdds l = .nan) := by
  refine ⟨?_, ?_, ?_⟩
  · intro h
    have hp := exp_neg_lt_one h
    refine ⟨odds l, logOdds_pos h, odds_eq_log h, ?_, Real.exp_pos _, hp⟩
    rw [Real.exp_neg, exp_odds h, correctProb]
    have h0 := Real.exp_ne_zero (-l)
    have h1 : (1 - Real.exp (-l)) ≠ 0 := by linarith
    field_simp
    ring
  · rintro rfl
    simp [logOdds, correctProb]
  · intro h
    have hp : 1 < Real.exp (-l) := by rw [Real.one_lt_exp_iff]; linarith
    rw [logOdds, if_neg (by linarith), if_neg (by linarith)]

/-- The smaller the loss the larger the output, and every real number is an output. -/
theorem C201_order :
    (∀ l l' x x', 0 < l → 0 < l' → logOdds l = .real x → logOdds l' = .real x' →
      (l < l' ↔ x' < x)) ∧
    (∀ x : ℝ, ∃ l, 0 < l ∧ logOdds l = .real x) := by
  have mono : ∀ l l', 0 < l → l < l' → odds l' < odds l := by
    intro l l' h hl
    have h' : 0 < l' := h.trans hl
    have hp := exp_neg_lt_one h
    have hp' := exp_neg_lt_one h'
    have he : Real.exp (-l') < Real.exp (-l) := Real.exp_lt_exp.2 (by linarith)
    rw [← Real.exp_lt_exp, exp_odds h, exp_odds h']
    rw [div_lt_div_iff₀ (by linarith) (by linarith)]
    nlinarith
  refine ⟨?_, ?_⟩
  · intro l l' x x' h h' e e'
    rw [logOdds_pos h] at e
    rw [logOdds_pos h'] at e'
    injection e with e
    injection e' with e'
    rw [← e, ← e']
    constructor
    · exact mono l l' h
    · intro hx
      by_contra hn
      rcases (not_lt.1 hn).lt_or_eq with hc | hc
      · exact absurd (mono l' l h' hc) (not_lt.2 hx.le)
      · rw [hc] at hx; exact lt_irrefl _ hx
  · intro x
    have hpos : 0 < Real.exp (-x) := Real.exp_pos _
    refine ⟨Real.log (1 + Real.exp (-x)), Real.log_pos (by linarith), ?_⟩
    have hl : 0 < Real.log (1 + Real.exp (-x)) := Real.log_pos (by linarith)
    rw [logOdds_pos hl]
    have e : Real.exp (-Real.log (1 + Real.exp (-x))) = (1 + Real.exp (-x))⁻¹ := by
      rw [Real.exp_neg, Real.exp_log (by linarith)]
    congr 1
    rw [e]
    have e2 : (1 : ℝ) - (1 + Real.exp (-x))⁻¹ = Real.exp (-x) / (1 + Real.exp (-x)) := by
      field_simp
      ring
    rw [e2, Real.log_div hpos.ne' (by linarith), Real.log_exp]
    ring

/-- With cross entropy and at least two classes the output is the margin: the logit of the
label minus the soft maximum of the other logits. -/
theorem C201_margin {K : ℕ} (z : Fin K → ℝ) (y : Fin K) (h : ∃ k, k ≠ y) :
    0 < crossEntropy z y ∧
    logOdds (crossEntropy z y) =
      .real (z y - Real.log (∑ k ∈ Finset.univ.erase y, Real.exp (z k))) := by
  classical
  obtain ⟨k, hk⟩ := h
  have hS : 0 < ∑ k ∈ Finset.univ.erase y, Real.exp (z k) :=
    Finset.sum_pos (fun _ _ => Real.exp_pos _) ⟨k, by simp [hk]⟩
  have hT : ∑ k, Real.exp (z k) = Real.exp (z y) + ∑ k ∈ Finset.univ.erase y, Real.exp (z k) :=
    (Finset.add_sum_erase _ _ (Finset.mem_univ y)).symm
  have hy : 0 < Real.exp (z y) := Real.exp_pos _
  have hTpos : 0 < ∑ k, Real.exp (z k) := by rw [hT]; linarith
  have hq : Real.exp (-crossEntropy z y) = Real.exp (z y) / ∑ k, Real.exp (z k) := by
    rw [crossEntropy, neg_neg, Real.exp_log (div_pos hy hTpos)]
  have hpos : 0 < crossEntropy z y := by
    rw [crossEntropy, neg_pos]
    refine Real.log_neg (div_pos hy hTpos) ?_
    rw [div_lt_one hTpos, hT]; linarith
  refine ⟨hpos, ?_⟩
  rw [logOdds_pos hpos, hq]
  congr 1
  have e : 1 - Real.exp (z y) / ∑ k, Real.exp (z k) =
      (∑ k ∈ Finset.univ.erase y, Real.exp (z k)) / ∑ k, Real.exp (z k) := by
    rw [eq_div_iff hTpos.ne', sub_mul, div_mul_cancel₀ _ hTpos.ne', hT]; ring
  rw [e, Real.log_div hS.ne' hTpos.ne', crossEntropy, Real.log_div hy.ne' hTpos.ne', Real.log_exp]
  ring

/-- With a single class the loss is zero and the output infinite for every input. -/
theorem C201_one_class (z : Fin 1 → ℝ) : logOdds (crossEntropy z 0) = .posInf := by
  have : crossEntropy z 0 = 0 := by
    simp [crossEntropy]
  rw [this]
  exact ((C201_value 0).2.1 rfl).1

/-- In the music experiment the output is infinite exactly for sequences whose last target is
padding, whatever the model predicts, and these count as predicted correctly with certainty. -/
theorem C201_padding {K : ℕ} (hK : 2 ≤ K) (pad : Fin K) (z : Fin K → ℝ) (y : Fin K) :
    (logOdds (crossEntropyIgnore pad z y) = .posInf ↔ y = pad) ∧
    (y = pad ↔ correctProb (crossEntropyIgnore pad z y) = 1) ∧
    (y ≠ pad → ∃ x, logOdds (crossEntropyIgnore pad z y) = .real x) := by
  by_cases h : y = pad
  · have := (C201_value 0).2.1 rfl
    simp [crossEntropyIgnore, h, this]
  · have hk : ∃ k, k ≠ y := by
      have : Nontrivial (Fin K) := Fin.nontrivial_iff_two_le.2 hK
      exact exists_ne y
    have hm := C201_margin z y hk
    have hlt := exp_neg_lt_one hm.1
    have e0 : crossEntropyIgnore pad z y = crossEntropy z y := by simp [crossEntropyIgnore, h]
    rw [e0, hm.2]
    refine ⟨⟨fun e => ?_, fun e => absurd e h⟩, ⟨fun e => absurd e h, fun e => ?_⟩, fun _ => ⟨_, rfl⟩⟩
    · cases e
    · rw [correctProb] at e
      exact absurd e hlt.ne

variable {E : Type} [NormedAddCommGroup E] [NormedSpace ℝ E]

/-- The gradient of the output is the gradient of the loss, negated and divided by one minus
the correct probability; the factor by which TRAK weights a training sample removes exactly
this division. -/
theorem C201_gradient (L : E → ℝ) (L' : E →L[ℝ] ℝ) (θ : E) (hL : HasFDerivAt L L' θ)
    (h : 0 < L θ) (F : E → ℝ) (hF : ∀ θ', 0 < L θ' → logOdds (L θ') = .real (F θ')) :
    ∃ F' : E →L[ℝ] ℝ, HasFDerivAt F F' θ ∧
      F' = -((1 - correctProb (L θ))⁻¹ • L') ∧ (1 - correctProb (L θ)) • F' = -L' := by
  have hp := exp_neg_lt_one h
  have hne : (1 - Real.exp (-(L θ))) ≠ 0 := by linarith
  refine ⟨-((1 - correctProb (L θ))⁻¹ • L'), ?_, rfl, ?_⟩
  · have h1 := (odds_deriv h).comp_hasFDerivAt θ hL
    have hev : F =ᶠ[nhds θ] odds ∘ L := by
      filter_upwards [hL.continuousAt.eventually (lt_mem_nhds h)] with θ' h'
      have := hF θ' h'
      rw [logOdds_pos h'] at this
      injection this with this
      exact this.symm
    have h2 := h1.congr_of_eventuallyEq hev
    rw [neg_smul] at h2
    exact h2
  · rw [smul_neg, smul_smul, correctProb, mul_inv_cancel₀ hne, one_smul]

/-- With one checkpoint every TRAK score is therefore, whatever the kernel, the product of the
two loss gradients divided by one minus the correct probability of the test sample only. -/
theorem C201_trak (A : (E →L[ℝ] ℝ) →ₗ[ℝ] (E →L[ℝ] ℝ) →ₗ[ℝ] ℝ) (gTest gTrain : E →L[ℝ] ℝ)
    (lTest lTrain : ℝ) (hTrain : 0 < lTrain) :
    A (-((1 - correctProb lTest)⁻¹ • gTest)) (-((1 - correctProb lTrain)⁻¹ • gTrain)) *
        (1 - correctProb lTrain) =
      (1 - correctProb lTest)⁻¹ * A gTest gTrain := by
  have hp := exp_neg_lt_one hTrain
  have hne : (1 - correctProb lTrain) ≠ 0 := by rw [correctProb]; linarith
  simp only [map_neg, map_smul, LinearMap.neg_apply, LinearMap.smul_apply, smul_eq_mul]
  field_simp

/-- If the output is formed from the mean loss of a batch, the contribution of one sample to
its gradient is not the gradient of that sample's own output but a multiple of it with a
positive factor that depends on the whole batch and is 1 for a batch of one sample. -/
theorem C201_batch (F : ℝ → ℝ) (hF : ∀ l, 0 < l → logOdds l = .real (F l)) {B : ℕ} (hB : 0 < B)
    (l : Fin B → E → ℝ) (g : Fin B → E →L[ℝ] ℝ) (θ : E)
    (hg : ∀ j, HasFDerivAt (l j) (g j) θ) (hl : ∀ j, 0 < l j θ) :
    ∃ share : Fin B → E →L[ℝ] ℝ,
      HasFDerivAt (fun θ' => F (batchLoss fun j => l j θ')) (∑ j, share j) θ ∧
      ∀ j, ∃ c own, 0 < c ∧ HasFDerivAt (fun θ' => F (l j θ')) own θ ∧ share j = c • own ∧
        c = (1 - correctProb (l j θ)) / (B * (1 - correctProb (batchLoss fun j => l j θ))) ∧
        (B = 1 → c = 1) := by
  have hB' : (0 : ℝ) < B := by exact_mod_cast hB
  have hm : 0 < batchLoss fun j => l j θ := by
    have : Nonempty (Fin B) := ⟨⟨0, hB⟩⟩
    exact div_pos (Finset.sum_pos (fun j _ => hl j) Finset.univ_nonempty) hB'
  have hmp := exp_neg_lt_one hm
  have hd : HasFDerivAt (fun θ' => batchLoss fun j => l j θ') ((B : ℝ)⁻¹ • ∑ j, g j) θ := by
    have h1 : HasFDerivAt (fun θ' => ∑ j, l j θ') (∑ j, g j) θ :=
      HasFDerivAt.fun_sum fun j _ => hg j
    have h2 := h1.const_mul (B : ℝ)⁻¹
    refine h2.congr_of_eventuallyEq (Filter.Eventually.of_forall fun θ' => ?_)
    simp only [batchLoss]
    rw [div_eq_inv_mul]
  refine ⟨fun j => (-((1 - correctProb (batchLoss fun j => l j θ))⁻¹) * (B : ℝ)⁻¹) • g j, ?_, ?_⟩
  · have h1 := (out_deriv F hF hm).comp_hasFDerivAt θ hd
    rw [smul_smul, Finset.smul_sum] at h1
    exact h1
  · intro j
    have hp := exp_neg_lt_one (hl j)
    have hne : (1 - correctProb (l j θ)) ≠ 0 := by rw [correctProb]; linarith
    have hne2 : (1 - correctProb (batchLoss fun j => l j θ)) ≠ 0 := by rw [correctProb]; linarith
    refine ⟨(1 - correctProb (l j θ)) / (B * (1 - correctProb (batchLoss fun j => l j θ))),
      -(1 - correctProb (l j θ))⁻¹ • g j, ?_, (out_deriv F hF (hl j)).comp_hasFDerivAt θ (hg j), ?_, rfl, ?_⟩
    · refine div_pos ?_ (mul_pos hB' ?_) <;> rw [correctProb] <;> linarith
    · rw [smul_smul]
      congr 1
      field_simp
    · rintro rfl
      have : (batchLoss fun j => l j θ) = l j θ := by
        simp [batchLoss, Subsingleton.elim j 0]
      rw [this]
      field_simp
      simp

/-! ## Examples -/

/-- Two classes with logits 1 and 3: the margin of the second is 2. -/
example : logOdds (crossEntropy ![1, 3] (1 : Fin 2)) = .real (3 - Real.log (Real.exp 1)) := by
  have h := (C201_margin ![1, 3] (1 : Fin 2) ⟨0, by decide⟩).2
  rw [h]
  have : (Finset.univ.erase (1 : Fin 2)) = {0} := by decide
  rw [this]
  simp

/-- The hypotheses of the gradient theorems can be met: the loss `θ` at `θ = 1`. -/
example : ∃ F : ℝ → ℝ, (∀ l, 0 < l → logOdds l = .real (F l)) ∧
    HasFDerivAt (fun θ : ℝ => θ) (ContinuousLinearMap.id ℝ ℝ) 1 ∧ (0 : ℝ) < 1 :=
  ⟨odds, fun _ h => logOdds_pos h, hasFDerivAt_id 1, one_pos⟩

end Verif.TRAKOdds
