import Verif.DataInf.Props
import Mathlib.Algebra.BigOperators.Group.List.Lemmas
import Mathlib.Tactic.Linarith
import Mathlib.Tactic.FinCases
import Mathlib.LinearAlgebra.Matrix.DotProduct

/-!
# C160: DataInf against the damped Gauss–Newton inverse it approximates

The documentation of DataInf presents the transform as an approximation of `(mean g gᵀ + r I)⁻¹ v`.  The
theorems give the exact gap of the quadratic form, hence its sign and when it vanishes.
-/

namespace Verif.DataInf

open Matrix

variable {n : Nat}

/-- Specification: the damped empirical Gauss–Newton matrix `mean g gᵀ + r I` of a list of gradients. -/
noncomputable def damped (grads : List (Fin n → ℝ)) (r : ℝ) : Matrix (Fin n) (Fin n) ℝ :=
  Matrix.of (fun i j => (grads.map (fun g => g i * g j)).sum / (grads.length : ℝ)) + r • 1

/-- `(damped y)_i = mean g_i (g·y) + r y_i`. -/
lemma damped_mulVec (grads : List (Fin n → ℝ)) (r : ℝ) (y : Fin n → ℝ) (i : Fin n) :
    (damped grads r *ᵥ y) i = (grads.map (fun g => g i * (g ⬝ᵥ y))).sum / (grads.length : ℝ) + r * y i := by
  rw [damped, add_mulVec, smul_mulVec, one_mulVec]
  simp only [Pi.add_apply, Pi.smul_apply, smul_eq_mul]
  congr 1
  simp only [mulVec, dotProduct, Matrix.of_apply]
  have : ∀ l : List (Fin n → ℝ), ∑ j, (l.map (fun g => g i * g j)).sum * y j =
      (l.map (fun g => g i * ∑ j, g j * y j)).sum := by
    intro l
    induction l with
    | nil => simp
    | cons g gs ih =>
      simp only [List.map_cons, List.sum_cons, add_mul, Finset.sum_add_distrib, ih]
      congr 1
      rw [Finset.mul_sum]
      exact Finset.sum_congr rfl fun j _ => by ring
  rw [← this, Finset.sum_div]
  exact Finset.sum_congr rfl fun j _ => by ring

/-- `u · damped y = mean (u·g)(g·y) + r u·y`. -/
lemma damped_form (grads : List (Fin n → ℝ)) (r : ℝ) (u y : Fin n → ℝ) :
    u ⬝ᵥ (damped grads r *ᵥ y) = (grads.map (fun g => (u ⬝ᵥ g) * (g ⬝ᵥ y))).sum / (grads.length : ℝ) + r * (u ⬝ᵥ y) := by
  have h : ∀ l : List (Fin n → ℝ), ∑ i, u i * (l.map (fun g => g i * (g ⬝ᵥ y))).sum =
      (l.map (fun g => (u ⬝ᵥ g) * (g ⬝ᵥ y))).sum := by
    intro l
    induction l with
    | nil => simp
    | cons g gs ih =>
      simp only [List.map_cons, List.sum_cons, mul_add, Finset.sum_add_distrib, ih]
      congr 1
      rw [show u ⬝ᵥ g = ∑ i, u i * g i from rfl, Finset.sum_mul]
      exact Finset.sum_congr rfl fun j _ => by ring
  rw [← h]
  unfold dotProduct
  simp only [damped_mulVec, mul_add, Finset.sum_add_distrib]
  rw [Finset.sum_div, Finset.mul_sum]
  congr 1
  · exact Finset.sum_congr rfl fun j _ => by unfold dotProduct; ring
  · exact Finset.sum_congr rfl fun j _ => by ring

/-- The damped matrix is invertible: the exact solution exists and is unique. -/
lemma damped_solve (grads : List (Fin n → ℝ)) {r : ℝ} (hr : 0 < r) (v : Fin n → ℝ) :
    ∃ x, ∀ y, damped grads r *ᵥ y = v ↔ y = x := by
  have hdet : (damped grads r).det ≠ 0 := by
    intro h0
    obtain ⟨u, hu, hz⟩ := Matrix.exists_mulVec_eq_zero_iff.2 h0
    have h := damped_form grads r u u
    rw [hz, dotProduct_zero] at h
    have h1 : 0 ≤ (grads.map (fun g => (u ⬝ᵥ g) * (g ⬝ᵥ u))).sum / (grads.length : ℝ) := by
      refine div_nonneg (List.sum_nonneg ?_) (Nat.cast_nonneg _)
      intro a ha
      obtain ⟨g, _, rfl⟩ := List.mem_map.1 ha
      rw [dotProduct_comm g u]
      exact mul_self_nonneg _
    have h2 : 0 < u ⬝ᵥ u := by
      have : 0 ≤ u ⬝ᵥ u := Finset.sum_nonneg fun i _ => mul_self_nonneg _
      exact lt_of_le_of_ne this fun h => hu (dotProduct_self_eq_zero.1 h.symm)
    have := mul_pos hr h2
    linarith
  refine ⟨(damped grads r)⁻¹ *ᵥ v, fun y => ⟨?_, ?_⟩⟩
  · rintro rfl
    rw [mulVec_mulVec, nonsing_inv_mul _ hdet.isUnit, one_mulVec]
  · rintro rfl
    rw [mulVec_mulVec, mul_nonsing_inv _ hdet.isUnit, one_mulVec]

/-- Completing the square for one cached gradient. -/
lemma sol_gap {v g : Fin n → ℝ} {r : ℝ} (hr : 0 < r) (y : Fin n → ℝ) :
    v ⬝ᵥ sol v g r = 2 * (v ⬝ᵥ y) - ((g ⬝ᵥ y) ^ 2 + r * (y ⬝ᵥ y))
      + ((g ⬝ᵥ (y - sol v g r)) ^ 2 + r * ((y - sol v g r) ⬝ᵥ (y - sol v g r))) := by
  have hs : rankOne g r *ᵥ sol v g r = v := (rankOne_solve hr).2 rfl
  set w := sol v g r
  have hv : ∀ z : Fin n → ℝ, v ⬝ᵥ z = (g ⬝ᵥ w) * (g ⬝ᵥ z) + r * (w ⬝ᵥ z) := by
    intro z
    conv_lhs => rw [← hs]
    rw [rankOne, add_mulVec, vecMulVec_mulVec, smul_mulVec, one_mulVec, add_dotProduct, smul_dotProduct]
    simp [smul_dotProduct, mul_comm]
  rw [hv w, hv y]
  simp only [dotProduct_sub, sub_dotProduct]
  rw [dotProduct_comm y w]
  ring

lemma dot_sum_map (v : Fin n → ℝ) (f : (Fin n → ℝ) → Fin n → ℝ) (l : List (Fin n → ℝ)) :
    v ⬝ᵥ (fun k => (l.map f).sum k / (l.length : ℝ)) = (l.map (fun g => v ⬝ᵥ f g)).sum / (l.length : ℝ) := by
  have h : ∀ l : List (Fin n → ℝ), v ⬝ᵥ (l.map f).sum = (l.map (fun g => v ⬝ᵥ f g)).sum := by
    intro l
    induction l with
    | nil => simp
    | cons a l ih => simp only [List.map_cons, List.sum_cons, dotProduct_add, ih]
  rw [← h]
  unfold dotProduct
  rw [Finset.sum_div]
  exact Finset.sum_congr rfl fun j _ => by ring

/-- The gap as a mean of squares. -/
lemma gap_identity {grads : List (Fin n → ℝ)} (hne : grads ≠ []) {r : ℝ} (hr : 0 < r) {v x : Fin n → ℝ}
    (hx : damped grads r *ᵥ x = v) :
    (grads.map (fun g => v ⬝ᵥ sol v g r)).sum / (grads.length : ℝ) = v ⬝ᵥ x +
      (grads.map (fun g => (g ⬝ᵥ (x - sol v g r)) ^ 2 + r * ((x - sol v g r) ⬝ᵥ (x - sol v g r)))).sum
        / (grads.length : ℝ) := by
  have hl : (grads.length : ℝ) ≠ 0 := by
    exact_mod_cast (List.length_pos_iff.2 hne).ne'
  have h1 : v ⬝ᵥ x = (grads.map (fun g => (g ⬝ᵥ x) ^ 2)).sum / (grads.length : ℝ) + r * (x ⬝ᵥ x) := by
    rw [dotProduct_comm, ← hx, damped_form]
    congr 4
    funext g
    rw [dotProduct_comm x g]; ring
  have h2 : ∀ l : List (Fin n → ℝ), (l.map (fun g => v ⬝ᵥ sol v g r)).sum =
      (l.length : ℝ) * (2 * (v ⬝ᵥ x) - r * (x ⬝ᵥ x)) - (l.map (fun g => (g ⬝ᵥ x) ^ 2)).sum +
      (l.map (fun g => (g ⬝ᵥ (x - sol v g r)) ^ 2 + r * ((x - sol v g r) ⬝ᵥ (x - sol v g r)))).sum := by
    intro l
    induction l with
    | nil => simp
    | cons g gs ih =>
      simp only [List.map_cons, List.sum_cons, List.length_cons, ih]
      rw [sol_gap hr x]
      push_cast
      ring
  rw [h2, add_div, sub_div, mul_div_cancel_left₀ _ hl]
  linarith

/-- **C160.** For one layer, every positive effective regularisation, chunk size, non-empty cache and gradient `v`: the exact
damped inverse-vector product `x` exists and is unique, and the DataInf transform `w` of the same `v` satisfies
`v·w = v·x + mean over cached g of ((g·(x - w_g))² + r |x - w_g|²)`, where `w_g` is the solution for `g` alone. -/
theorem C160_gap (tenth : ℝ) (bs : Nat) (hb : 0 < bs) (grads : List (Fin n → ℝ)) (hne : grads ≠ []) (reg : Option ℝ)
    (hr : 0 < reg.getD tenth) (v : Fin n → ℝ) :
    ∃ (w x : Fin n → ℝ) (W : (Fin n → ℝ) → Fin n → ℝ), transformLayer tenth bs grads reg v = some w ∧
      (∀ y, damped grads (reg.getD tenth) *ᵥ y = v ↔ y = x) ∧
      (∀ g y, rankOne g (reg.getD tenth) *ᵥ y = v ↔ y = W g) ∧
      v ⬝ᵥ w = v ⬝ᵥ x + (grads.map (fun g => (g ⬝ᵥ (x - W g)) ^ 2 + reg.getD tenth * ((x - W g) ⬝ᵥ (x - W g)))).sum
        / (grads.length : ℝ) := by
  obtain ⟨x, hx⟩ := damped_solve grads hr v
  refine ⟨_, x, fun g => sol v g (reg.getD tenth), transformLayer_eq tenth bs hb grads reg hr v, hx,
    fun g y => rankOne_solve hr, ?_⟩
  rw [dot_sum_map]
  exact gap_identity hne hr ((hx x).2 rfl)

/-- **C160.** The DataInf score of a gradient with itself is never below the score with the exact damped inverse, and never above
`|v|² / r`. -/
theorem C160_over (tenth : ℝ) (bs : Nat) (hb : 0 < bs) (grads : List (Fin n → ℝ)) (hne : grads ≠ []) (reg : Option ℝ)
    (hr : 0 < reg.getD tenth) (v w x : Fin n → ℝ) (hw : transformLayer tenth bs grads reg v = some w)
    (hx : damped grads (reg.getD tenth) *ᵥ x = v) : v ⬝ᵥ x ≤ v ⬝ᵥ w ∧ v ⬝ᵥ w ≤ (v ⬝ᵥ v) / reg.getD tenth := by
  have hl : (0 : ℝ) < grads.length := by exact_mod_cast List.length_pos_iff.2 hne
  rw [transformLayer_eq tenth bs hb grads reg hr v] at hw
  obtain rfl := Option.some.inj hw
  rw [dot_sum_map]
  constructor
  · rw [gap_identity hne hr hx]
    have : 0 ≤ (grads.map (fun g => (g ⬝ᵥ (x - sol v g (reg.getD tenth))) ^ 2 + reg.getD tenth *
        ((x - sol v g (reg.getD tenth)) ⬝ᵥ (x - sol v g (reg.getD tenth))))).sum / (grads.length : ℝ) := by
      refine div_nonneg (List.sum_nonneg ?_) hl.le
      intro a ha
      obtain ⟨g, _, rfl⟩ := List.mem_map.1 ha
      exact add_nonneg (sq_nonneg _) (mul_nonneg hr.le (Finset.sum_nonneg fun i _ => mul_self_nonneg _))
    linarith
  · rw [div_le_iff₀ hl, ← nsmul_eq_mul' ]
    have := List.sum_le_card_nsmul (grads.map (fun g => v ⬝ᵥ sol v g (reg.getD tenth))) ((v ⬝ᵥ v) / reg.getD tenth) (by
      intro a ha
      obtain ⟨g, _, rfl⟩ := List.mem_map.1 ha
      have e : v ⬝ᵥ sol v g (reg.getD tenth) =
          (v ⬝ᵥ v - (∑ k, v k * g k) ^ 2 / (reg.getD tenth + ∑ k, g k ^ 2)) / reg.getD tenth := by
        have h : ∀ k, v k * sol v g (reg.getD tenth) k = (v k * v k - (∑ k, v k * g k) / (reg.getD tenth + ∑ k, g k ^ 2)
            * (v k * g k)) / reg.getD tenth := fun k => by unfold sol; ring
        rw [show v ⬝ᵥ sol v g (reg.getD tenth) = ∑ k, v k * sol v g (reg.getD tenth) k from rfl]
        simp only [h]
        rw [← Finset.sum_div, Finset.sum_sub_distrib, ← Finset.mul_sum]
        congr 1
        rw [show v ⬝ᵥ v = ∑ k, v k * v k from rfl]
        ring
      rw [e]
      refine div_le_div_of_nonneg_right ?_ hr.le
      have := div_nonneg (sq_nonneg (∑ k, v k * g k)) (den_pos (g := g) hr).le
      linarith)
    simpa using this

/-- **C160.** The two agree exactly when every cached gradient alone gives the same solution; then the whole transforms agree. -/
theorem C160_exact_iff (tenth : ℝ) (bs : Nat) (hb : 0 < bs) (grads : List (Fin n → ℝ)) (hne : grads ≠ []) (reg : Option ℝ)
    (hr : 0 < reg.getD tenth) (v w x : Fin n → ℝ) (hw : transformLayer tenth bs grads reg v = some w)
    (hx : damped grads (reg.getD tenth) *ᵥ x = v) :
    (v ⬝ᵥ w = v ⬝ᵥ x ↔ ∀ g ∈ grads, rankOne g (reg.getD tenth) *ᵥ x = v) ∧ (v ⬝ᵥ w = v ⬝ᵥ x → w = x) := by
  have hl : (0 : ℝ) < grads.length := by exact_mod_cast List.length_pos_iff.2 hne
  rw [transformLayer_eq tenth bs hb grads reg hr v] at hw
  obtain rfl := Option.some.inj hw
  rw [dot_sum_map, gap_identity hne hr hx]
  set r := reg.getD tenth
  have hnn : ∀ g : Fin n → ℝ, 0 ≤ (g ⬝ᵥ (x - sol v g r)) ^ 2 + r * ((x - sol v g r) ⬝ᵥ (x - sol v g r)) := fun g =>
    add_nonneg (sq_nonneg _) (mul_nonneg hr.le (Finset.sum_nonneg fun i _ => mul_self_nonneg _))
  have key : (v ⬝ᵥ x + (grads.map (fun g => (g ⬝ᵥ (x - sol v g r)) ^ 2 + r * ((x - sol v g r) ⬝ᵥ (x - sol v g r)))).sum
        / (grads.length : ℝ) = v ⬝ᵥ x) ↔ ∀ g ∈ grads, x = sol v g r := by
    rw [add_eq_left, div_eq_zero_iff, or_iff_left hl.ne']
    constructor
    · intro h0 g hg
      have hz : (g ⬝ᵥ (x - sol v g r)) ^ 2 + r * ((x - sol v g r) ⬝ᵥ (x - sol v g r)) = 0 := by
        refine le_antisymm ?_ (hnn g)
        rw [← h0]
        refine List.single_le_sum ?_ _ (List.mem_map.2 ⟨g, hg, rfl⟩)
        intro a ha
        obtain ⟨g', _, rfl⟩ := List.mem_map.1 ha
        exact hnn g'
      have h3 : (x - sol v g r) ⬝ᵥ (x - sol v g r) = 0 := by
        have h4 : 0 ≤ (x - sol v g r) ⬝ᵥ (x - sol v g r) := Finset.sum_nonneg fun i _ => mul_self_nonneg _
        have := sq_nonneg (g ⬝ᵥ (x - sol v g r))
        nlinarith
      exact sub_eq_zero.1 (dotProduct_self_eq_zero.1 h3)
    · intro h
      apply List.sum_eq_zero
      intro a ha
      obtain ⟨g, hg, rfl⟩ := List.mem_map.1 ha
      rw [← h g hg]; simp
  refine ⟨key.trans ⟨fun h g hg => (rankOne_solve hr).2 (h g hg), fun h g hg => (rankOne_solve hr).1 (h g hg)⟩, ?_⟩
  intro h
  have h' := key.1 h
  have e : grads.map (fun g => sol v g r) = List.replicate grads.length x := by
    rw [List.eq_replicate_iff]
    refine ⟨by simp, fun b hb => ?_⟩
    obtain ⟨g, hg, rfl⟩ := List.mem_map.1 hb
    exact (h' g hg).symm
  funext k
  rw [e, List.sum_replicate]
  simp only [Pi.smul_apply, nsmul_eq_mul]
  field_simp

/-- A strict case: with the two cached gradients `1` and `0`, regularisation `1` and `v = 1`, DataInf gives `3/4`
where the exact damped inverse gives `2/3`. -/
example : transformLayer (1 / 10 : ℝ) 1 [![1], ![0]] (some 1) ![1] = some ![3 / 4] ∧
    damped [![1], ![0]] 1 *ᵥ (![2 / 3] : Fin 1 → ℝ) = ![1] := by
  constructor
  · rw [transformLayer_eq _ 1 one_pos _ _ (by simp)]
    congr 1
    funext k; fin_cases k
    simp [sol]; norm_num
  · funext k
    rw [damped_mulVec]
    fin_cases k
    simp; norm_num

end Verif.DataInf
