import Verif.Attr.DerivProps
import Mathlib.Analysis.Normed.Group.Bounded
import Mathlib.Analysis.Convex.Function
import Mathlib.Topology.Order.Compact
import Mathlib.LinearAlgebra.Matrix.DotProduct

/-! # C144: convex losses, retraining exists and is unique and the score is its exact derivative -/

namespace Verif.Attr

open Matrix Topology

variable {X : Type} {p : ℕ}

/-! ### Specification -/

/-- `θ` is the result of training: the one minimiser of the objective in which `x` has additional weight `ε`. -/
def IsRetrained (loss : (Fin p → ℝ) → List X → ℝ) (reg : ℝ) (data : List X) (x : X) (ε : ℝ) (θ : Fin p → ℝ) : Prop :=
  ∀ t, t ≠ θ → objective loss reg data x ε θ < objective loss reg data x ε t

/-- The loss of a batch is a mean of non-negative, smooth, convex losses of its samples. -/
structure ConvexMean (loss : (Fin p → ℝ) → List X → ℝ) (sample : (Fin p → ℝ) → X → ℝ) : Prop where
  mean : ∀ θ b, loss θ b = (b.map (sample θ)).sum / (b.length : ℝ)
  nonneg : ∀ θ x, 0 ≤ sample θ x
  smooth : ∀ x, ContDiff ℝ 2 fun t => sample t x
  convex : ∀ x, ConvexOn ℝ Set.univ fun t => sample t x

/-! ### Helper lemmas -/

theorem convex_hess_nonneg {f : (Fin p → ℝ) → ℝ} (hf : ContDiff ℝ 2 f) (hc : ConvexOn ℝ Set.univ f) (θ v : Fin p → ℝ) :
    0 ≤ v ⬝ᵥ hessAt f θ *ᵥ v := by
  have hl : ∀ s : ℝ, HasDerivAt (fun s : ℝ => θ + s • v) v s := by
    intro s
    have := ((hasDerivAt_id s).smul_const v).const_add θ
    simpa using this
  have hd : ∀ s : ℝ, HasDerivAt (fun s : ℝ => f (θ + s • v)) (gradAt f (θ + s • v) ⬝ᵥ v) s := by
    intro s
    have := ((hf.differentiable (by norm_num) (θ + s • v)).hasFDerivAt).comp_hasDerivAt s (hl s)
    rw [fderiv_eq_dot] at this
    exact this
  have hcl : ConvexOn ℝ Set.univ (fun s : ℝ => f (θ + s • v)) := by
    refine ⟨convex_univ, fun a _ b _ r q hr hq hrq => ?_⟩
    have := hc.2 (Set.mem_univ (θ + a • v)) (Set.mem_univ (θ + b • v)) hr hq hrq
    have e : r • (θ + a • v) + q • (θ + b • v) = θ + (r • a + q • b) • v := by
      rw [smul_add, smul_add, add_smul, smul_assoc, smul_assoc]
      have : θ = r • θ + q • θ := by rw [← add_smul, hrq, one_smul]
      conv_rhs => rw [this]
      abel
    rw [e] at this
    exact this
  have hm : Monotone (fun s : ℝ => gradAt f (θ + s • v) ⬝ᵥ v) := by
    have h := hcl.monotoneOn_deriv (fun s _ => (hd s).differentiableAt)
    intro a b hab
    have := h (Set.mem_univ a) (Set.mem_univ b) hab
    rwa [(hd a).deriv, (hd b).deriv] at this
  have h2 : HasDerivAt (fun s : ℝ => gradAt f (θ + s • v) ⬝ᵥ v) ((hessAt f θ *ᵥ v) ⬝ᵥ v) 0 := by
    have hg := (gradAt_strict (hf.contDiffAt (x := θ + (0 : ℝ) • v))).hasFDerivAt.comp_hasDerivAt 0 (hl 0)
    rw [fderiv_gradAt hf.contDiffAt] at hg
    have e0 : θ + (0 : ℝ) • v = θ := by simp
    rw [e0] at hg
    rw [hasDerivAt_pi] at hg
    have := HasDerivAt.fun_sum (u := Finset.univ) fun k _ => (hg k).mul_const (v k)
    exact this
  have := h2.nonneg_of_monotone hm
  rwa [dotProduct_comm] at this

theorem convex_det {f : (Fin p → ℝ) → ℝ} (hf : ContDiff ℝ 2 f) (hc : ConvexOn ℝ Set.univ f) (θ : Fin p → ℝ) {reg : ℝ} (hr : 0 < reg) :
    (hessAt f θ + reg • (1 : Matrix (Fin p) (Fin p) ℝ)).det ≠ 0 := by
  intro h0
  obtain ⟨v, hv, hz⟩ := Matrix.exists_mulVec_eq_zero_iff.2 h0
  have h1 : v ⬝ᵥ (hessAt f θ + reg • (1 : Matrix (Fin p) (Fin p) ℝ)) *ᵥ v = 0 := by rw [hz, dotProduct_zero]
  rw [add_mulVec, dotProduct_add, smul_mulVec, one_mulVec, dotProduct_smul, smul_eq_mul] at h1
  have h2 := convex_hess_nonneg hf hc θ v
  have h3 : 0 ≤ v ⬝ᵥ v := Finset.sum_nonneg fun k _ => mul_self_nonneg _
  have h4 : 0 ≤ reg * (v ⬝ᵥ v) := mul_nonneg hr.le h3
  have h5 : reg * (v ⬝ᵥ v) = 0 := by linarith
  rcases mul_eq_zero.1 h5 with h | h
  · exact hr.ne' h
  · exact hv (dotProduct_self_eq_zero.1 h)

theorem sq_strictConvex : StrictConvexOn ℝ Set.univ fun t : Fin p → ℝ => ∑ k, t k ^ 2 := by
  refine ⟨convex_univ, fun x _ y _ hxy a b ha hb hab => ?_⟩
  have hpos : 0 < ∑ k, (x k - y k) ^ 2 := by
    obtain ⟨k, hk⟩ := Function.ne_iff.1 hxy
    refine Finset.sum_pos' (fun k _ => sq_nonneg _) ⟨k, Finset.mem_univ _, ?_⟩
    have : x k - y k ≠ 0 := sub_ne_zero.2 hk
    positivity
  have e : a • (∑ k, x k ^ 2) + b • (∑ k, y k ^ 2) - ∑ k, (a • x + b • y) k ^ 2 = a * b * ∑ k, (x k - y k) ^ 2 := by
    simp only [smul_eq_mul, Finset.mul_sum, ← Finset.sum_add_distrib, ← Finset.sum_sub_distrib]
    refine Finset.sum_congr rfl fun k _ => ?_
    simp only [Pi.add_apply, Pi.smul_apply, smul_eq_mul]
    obtain rfl : b = 1 - a := by linarith
    ring
  have : 0 < a * b * ∑ k, (x k - y k) ^ 2 := mul_pos (mul_pos ha hb) hpos
  show ∑ k, (a • x + b • y) k ^ 2 < _
  linarith

theorem sum_convex {sample : (Fin p → ℝ) → X → ℝ} (h : ∀ x, ConvexOn ℝ Set.univ fun t => sample t x) (b : List X) :
    ConvexOn ℝ Set.univ fun t => (b.map (sample t)).sum := by
  induction b with
  | nil => simpa using convexOn_const (0 : ℝ) convex_univ
  | cons x b ih =>
    have e : (fun t => ((x :: b).map (sample t)).sum) = (fun t => sample t x) + fun t => (b.map (sample t)).sum := by
      funext t
      simp
    rw [e]
    exact (h x).add ih

theorem sum_smooth {sample : (Fin p → ℝ) → X → ℝ} (h : ∀ x, ContDiff ℝ 2 fun t => sample t x) (b : List X) :
    ContDiff ℝ 2 fun t => (b.map (sample t)).sum := by
  induction b with
  | nil => simpa using contDiff_const
  | cons x b ih => simpa using (h x).add ih

variable {loss : (Fin p → ℝ) → List X → ℝ} {sample : (Fin p → ℝ) → X → ℝ}

theorem ConvexMean.loss_smooth (h : ConvexMean loss sample) (b : List X) : ContDiff ℝ 2 fun t => loss t b := by
  have : (fun t => loss t b) = fun t => (b.map (sample t)).sum / (b.length : ℝ) := funext fun t => h.mean t b
  rw [this]
  exact (sum_smooth h.smooth b).div_const _

theorem ConvexMean.loss_nonneg (h : ConvexMean loss sample) (θ : Fin p → ℝ) (b : List X) : 0 ≤ loss θ b := by
  rw [h.mean]
  refine div_nonneg (List.sum_nonneg fun y hy => ?_) (Nat.cast_nonneg _)
  obtain ⟨x, -, rfl⟩ := List.mem_map.1 hy
  exact h.nonneg _ _

theorem ConvexMean.loss_convex (h : ConvexMean loss sample) (b : List X) : ConvexOn ℝ Set.univ fun t => loss t b := by
  have : (fun t => loss t b) = fun t => ((b.length : ℝ)⁻¹) • (b.map (sample t)).sum := funext fun t => by
    rw [h.mean, div_eq_inv_mul, smul_eq_mul]
  rw [this]
  exact (sum_convex h.convex b).smul (by positivity)

theorem ConvexMean.single (h : ConvexMean loss sample) (θ : Fin p → ℝ) (x : X) : loss θ [x] = sample θ x := by
  rw [h.mean]
  simp

/-- The objective is strictly convex as long as the total weight of the sample stays non-negative. -/
theorem objective_strictConvex (h : ConvexMean loss sample) {reg : ℝ} (hr : 0 < reg) {data : List X} {x : X} (hx : x ∈ data) {ε : ℝ}
    (hε : -(1 / (data.length : ℝ)) ≤ ε) : StrictConvexOn ℝ Set.univ (objective loss reg data x ε) := by
  obtain ⟨s, t, rfl⟩ := List.append_of_mem hx
  have e : objective loss reg (s ++ x :: t) x ε = fun θ =>
      (((s ++ x :: t).length : ℝ)⁻¹ • ((s ++ t).map (sample θ)).sum + (1 / ((s ++ x :: t).length : ℝ) + ε) • sample θ x) + (reg / 2) • ∑ k, θ k ^ 2 := by
    funext θ
    unfold objective
    rw [h.single, h.mean]
    simp only [List.map_append, List.map_cons, List.sum_append, List.sum_cons, smul_eq_mul]
    ring
  rw [e]
  refine ((((sum_convex h.convex _).smul (by positivity)).add ((h.convex x).smul (by linarith)))).add_strictConvexOn ?_
  refine ⟨convex_univ, fun u hu v hv huv a b ha hb hab => ?_⟩
  have := (sq_strictConvex (p := p)).2 hu hv huv ha hb hab
  have h2 : 0 < reg / 2 := by positivity
  simp only [smul_eq_mul] at this ⊢
  nlinarith

theorem objective_has_min (h : ConvexMean loss sample) {reg : ℝ} (hr : 0 < reg) (data : List X) (x : X) :
    ∃ θ, ∀ t, objective loss reg data x 0 θ ≤ objective loss reg data x 0 t := by
  have hcont : Continuous (objective loss reg data x 0) := by
    have h1 := (h.loss_smooth data).continuous
    have h2 := (h.loss_smooth [x]).continuous
    unfold objective
    fun_prop
  refine hcont.exists_forall_le ?_
  have hlow : ∀ θ : Fin p → ℝ, reg / 2 * ‖θ‖ ^ 2 ≤ objective loss reg data x 0 θ := by
    intro θ
    have h1 := h.loss_nonneg θ data
    have h2 : ‖θ‖ ^ 2 ≤ ∑ k, θ k ^ 2 := by
      have hS : 0 ≤ ∑ k, θ k ^ 2 := Finset.sum_nonneg fun k _ => sq_nonneg _
      have : ‖θ‖ ≤ Real.sqrt (∑ k, θ k ^ 2) := by
        refine (pi_norm_le_iff_of_nonneg (Real.sqrt_nonneg _)).2 fun k => ?_
        rw [Real.norm_eq_abs]
        refine Real.abs_le_sqrt ?_
        exact Finset.single_le_sum (f := fun k => θ k ^ 2) (fun k _ => sq_nonneg _) (Finset.mem_univ k)
      calc ‖θ‖ ^ 2 ≤ Real.sqrt (∑ k, θ k ^ 2) ^ 2 := by gcongr
        _ = _ := Real.sq_sqrt hS
    unfold objective
    have : reg / 2 * ‖θ‖ ^ 2 ≤ reg / 2 * ∑ k, θ k ^ 2 := by gcongr
    linarith
  refine Filter.tendsto_atTop_mono hlow ?_
  refine Filter.Tendsto.const_mul_atTop (by positivity) ?_
  exact (Filter.tendsto_pow_atTop (by norm_num)).comp (tendsto_norm_cocompact_atTop (E := Fin p → ℝ))

theorem retrained_iff (h : ConvexMean loss sample) {reg : ℝ} (hr : 0 < reg) {data : List X} {x : X} (hx : x ∈ data) {ε : ℝ}
    (hε : -(1 / (data.length : ℝ)) ≤ ε) (θ : Fin p → ℝ) :
    IsRetrained loss reg data x ε θ ↔ ∀ t, objective loss reg data x ε θ ≤ objective loss reg data x ε t := by
  constructor
  · intro hθ t
    by_cases ht : t = θ
    · rw [ht]
    · exact (hθ t ht).le
  · intro hθ t ht
    refine lt_of_le_of_ne (hθ t) fun he => ht ?_
    refine (objective_strictConvex h hr hx hε).eq_of_isMinOn (fun u _ => ?_) (fun u _ => hθ u) (Set.mem_univ _) (Set.mem_univ _)
    show objective loss reg data x ε t ≤ objective loss reg data x ε u
    rw [← he]
    exact hθ u

theorem retrained_unique {reg : ℝ} {data : List X} {x : X} {ε : ℝ} {θ θ' : Fin p → ℝ} (h1 : IsRetrained loss reg data x ε θ)
    (h2 : IsRetrained loss reg data x ε θ') : θ = θ' := by
  by_contra hne
  exact lt_asymm (h1 θ' (Ne.symm hne)) (h2 θ hne)

theorem objective_zero (reg : ℝ) (data : List X) (x x' : X) : objective loss reg data x 0 = objective loss reg data x' 0 := by
  funext t
  simp [objective]

/-! ### C144 -/

/-- **C144.** Mean of convex losses with positive regularisation: training has exactly one result. With it as the checkpoint and the training set
cached in one batch the attribution succeeds, whatever the batch sizes of the two other loaders; retraining with a slightly changed weight of a
training sample has exactly one result too, and entry `(i, j)` is minus the derivative of test sample `j`'s target of the retrained model
with respect to the weight of training sample `i`. -/
theorem C144_scores_are_retraining_derivatives (h : ConvexMean loss sample) (target : (Fin p → ℝ) → X → ℝ) (reg : ℝ) (hr : 0 < reg)
    (data te : List X) (bs bs1 bs2 : ℕ) (hd : data ≠ []) (hbs : data.length ≤ bs) (h1 : 0 < bs1) (h2 : 0 < bs2)
    (hT : ∀ y ∈ te, Differentiable ℝ fun t => target t y) :
    ∃ θ, (∀ x, IsRetrained loss reg data x 0 θ) ∧
      ∃ M, (attribute' (taskSub loss target reg) [θ] (some ⟨data, bs, true⟩) none ⟨data, bs1, true⟩ ⟨te, bs2, true⟩).2 = .ok M ∧
        ∀ i (hi : i < data.length) j (hj : j < te.length),
          (∀ᶠ ε in 𝓝 (0 : ℝ), ∃ t, IsRetrained loss reg data data[i] ε t) ∧
          ∀ φ : ℝ → Fin p → ℝ, (∀ᶠ ε in 𝓝 (0 : ℝ), IsRetrained loss reg data data[i] ε (φ ε)) →
            φ 0 = θ ∧ HasDerivAt (fun ε => target (φ ε) te[j]) (-M.f i j) 0 := by
  obtain ⟨x0, hx0⟩ := List.exists_mem_of_ne_nil _ hd
  have hN : 0 < (data.length : ℝ) := by
    have := List.length_pos_iff.2 hd
    exact_mod_cast this
  have hN0 : -(1 / (data.length : ℝ)) < 0 := by
    have : 0 < 1 / (data.length : ℝ) := by positivity
    linarith
  obtain ⟨θ, hθ⟩ := objective_has_min h hr data x0
  have hmin : ∀ x t, objective loss reg data x 0 θ ≤ objective loss reg data x 0 t := fun x t => by
    rw [objective_zero reg data x x0]
    exact hθ t
  have hret : ∀ x, IsRetrained loss reg data x 0 θ := by
    intro x
    have := (retrained_iff h hr hx0 hN0.le θ).2 hθ
    intro t ht
    rw [objective_zero reg data x x0]
    exact this t ht
  have hdiff : ∀ x ε, Differentiable ℝ (objective loss reg data x ε) := by
    intro x ε
    have a := (h.loss_smooth data).differentiable (by norm_num)
    have b := (h.loss_smooth [x]).differentiable (by norm_num)
    unfold objective
    fun_prop
  have hR : ∀ x ∈ data, Regular loss reg data x θ := by
    intro x _
    refine ⟨(h.loss_smooth data).contDiffAt, (h.loss_smooth [x]).contDiffAt, ?_, convex_det (h.loss_smooth data) (h.loss_convex data) θ hr⟩
    have hm : IsLocalMin (objective loss reg data x 0) θ := Filter.Eventually.of_forall (hmin x)
    rw [← IsLocalMin.fderiv_eq_zero hm]
    exact (hdiff x 0 θ).hasFDerivAt
  obtain ⟨M, e, f⟩ := C140_single loss target reg θ data bs bs1 bs2 te hd hbs h1 h2 hR (fun y hy => hT y hy θ)
  refine ⟨θ, hret, M, e, fun i hi j hj => ?_⟩
  have hmem : data[i] ∈ data := List.getElem_mem hi
  obtain ⟨⟨ψ, hψ⟩, hder⟩ := f i hi j hj
  have hsmall : ∀ᶠ ε in 𝓝 (0 : ℝ), -(1 / (data.length : ℝ)) ≤ ε := (eventually_gt_nhds hN0).mono fun _ h => le_of_lt h
  have hψr : ∀ᶠ ε in 𝓝 (0 : ℝ), IsRetrained loss reg data data[i] ε (ψ ε) := by
    have hm := C140_retrained loss reg data data[i] θ ψ (hsmall.mono fun ε hε => (objective_strictConvex h hr hmem hε).convexOn) hψ
    filter_upwards [hm, hsmall] with ε a b
    exact (retrained_iff h hr hmem b _).2 a
  refine ⟨hψr.mono fun ε hε => ⟨_, hε⟩, fun φ hφ => ⟨?_, ?_⟩⟩
  · exact retrained_unique hφ.self_of_nhds (hret _)
  · have heq : φ =ᶠ[𝓝 0] ψ := by
      filter_upwards [hφ, hψr] with ε a b
      exact retrained_unique a b
    refine (hder ψ hψ).congr_of_eventuallyEq ?_
    filter_upwards [heq] with ε a
    rw [a]

/-- **C144.** The weight at which the sample is gone: with additional weight `-1/N` the objective is that of the other samples, the mean over them
scaled by `(N-1)/N`. -/
theorem C144_removed (h : ConvexMean loss sample) (reg : ℝ) (s t : List X) (x : X) (θ : Fin p → ℝ) :
    objective loss reg (s ++ x :: t) x (-(1 / ((s ++ x :: t).length : ℝ))) θ =
      ((s ++ t).length : ℝ) / ((s ++ x :: t).length : ℝ) * loss θ (s ++ t) + reg / 2 * ∑ k, θ k ^ 2 := by
  unfold objective
  rw [h.single, h.mean, h.mean]
  have hN : ((s ++ x :: t).length : ℝ) ≠ 0 := by
    have : (s ++ x :: t).length ≠ 0 := by simp
    exact_mod_cast this
  rcases Nat.eq_zero_or_pos (s ++ t).length with h0 | h0
  · have h00 := List.eq_nil_of_length_eq_zero h0
    obtain ⟨rfl, rfl⟩ := List.append_eq_nil_iff.1 h00
    simp
  · have hM : ((s ++ t).length : ℝ) ≠ 0 := by exact_mod_cast h0.ne'
    have e : ((s ++ x :: t).map (sample θ)).sum = ((s ++ t).map (sample θ)).sum + sample θ x := by
      simp only [List.map_append, List.map_cons, List.sum_append, List.sum_cons]
      ring
    rw [e]
    field_simp
    ring

end Verif.Attr
