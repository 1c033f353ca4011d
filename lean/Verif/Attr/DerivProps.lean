import Verif.Attr.DerivModel
import Verif.Attr.Props
import Verif.TracIn.Props
import Mathlib.Analysis.Calculus.ImplicitFunction.ProdDomain
import Mathlib.Analysis.Calculus.FDeriv.Symmetric
import Mathlib.Analysis.Calculus.ContDiff.Operations
import Mathlib.Analysis.Calculus.ContDiff.RCLike
import Mathlib.Analysis.Calculus.LocalExtr.Basic
import Mathlib.Analysis.Calculus.Deriv.Prod
import Mathlib.Analysis.Calculus.Deriv.AffineMap
import Mathlib.Analysis.Convex.Deriv
import Mathlib.Topology.Algebra.Module.FiniteDimension

/-! # C140, C141: scores as derivatives -/

namespace Verif.Attr

open Matrix Topology

variable {X : Type} {p : ℕ}

/-! ### Specification -/

/-- The training objective with L2 regularisation in which the sample `x` has additional weight `ε`. -/
noncomputable def objective (loss : (Fin p → ℝ) → List X → ℝ) (reg : ℝ) (data : List X) (x : X) (ε : ℝ) (θ : Fin p → ℝ) : ℝ :=
  loss θ data + reg / 2 * ∑ k, θ k ^ 2 + ε * loss θ [x]

/-- `φ` follows a stationary point of the objective as the weight of `x` changes, starting from `θ`. -/
def Follows (loss : (Fin p → ℝ) → List X → ℝ) (reg : ℝ) (data : List X) (x : X) (θ : Fin p → ℝ) (φ : ℝ → Fin p → ℝ) : Prop :=
  φ 0 = θ ∧ ContinuousAt φ 0 ∧ ∀ᶠ ε in 𝓝 0, HasFDerivAt (objective loss reg data x ε) (0 : (Fin p → ℝ) →L[ℝ] ℝ) (φ ε)

/-! ### Helper lemmas -/

theorem pi_sum (v : Fin p → ℝ) : v = ∑ k, v k • (Pi.single k 1 : Fin p → ℝ) := by
  funext i
  simp [Finset.sum_apply, Pi.single_apply]

theorem clm_eq_sum (L : (Fin p → ℝ) →L[ℝ] ℝ) (v : Fin p → ℝ) : L v = ∑ k, L (Pi.single k 1) * v k := by
  conv_lhs => rw [pi_sum v, map_sum]
  refine Finset.sum_congr rfl fun k _ => ?_
  rw [map_smul, smul_eq_mul, mul_comm]

theorem fderiv_eq_dot (f : (Fin p → ℝ) → ℝ) (θ v : Fin p → ℝ) : fderiv ℝ f θ v = gradAt f θ ⬝ᵥ v := clm_eq_sum _ _

theorem gradAt_contDiff {f : (Fin p → ℝ) → ℝ} {θ : Fin p → ℝ} (hf : ContDiffAt ℝ 2 f θ) : ContDiffAt ℝ 1 (gradAt f) θ := by
  rw [contDiffAt_pi]
  intro k
  have h1 : ContDiffAt ℝ 1 (fderiv ℝ f) θ := hf.fderiv_right (by norm_num)
  exact h1.clm_apply contDiffAt_const

theorem gradAt_strict {f : (Fin p → ℝ) → ℝ} {θ : Fin p → ℝ} (hf : ContDiffAt ℝ 2 f θ) :
    HasStrictFDerivAt (gradAt f) (fderiv ℝ (gradAt f) θ) θ :=
  (gradAt_contDiff hf).hasStrictFDerivAt (by norm_num)

theorem fderiv_gradAt {f : (Fin p → ℝ) → ℝ} {θ : Fin p → ℝ} (hf : ContDiffAt ℝ 2 f θ) (v : Fin p → ℝ) :
    fderiv ℝ (gradAt f) θ v = hessAt f θ *ᵥ v := by
  funext j
  have h1 := (hasStrictFDerivAt_pi'.1 (gradAt_strict hf) j).hasFDerivAt.fderiv
  have h2 : fderiv ℝ (gradAt f) θ v j = fderiv ℝ (fun y => gradAt f y j) θ v := by
    rw [h1]
    rfl
  rw [h2, clm_eq_sum]
  rfl

theorem hessAt_symm {f : (Fin p → ℝ) → ℝ} {θ : Fin p → ℝ} (hf : ContDiffAt ℝ 2 f θ) : (hessAt f θ)ᵀ = hessAt f θ := by
  have hs := hf.isSymmSndFDerivAt (by simp)
  have h1 : HasFDerivAt (fderiv ℝ f) (fderiv ℝ (fderiv ℝ f) θ) θ :=
    ((hf.fderiv_right (m := 1) (by norm_num)).differentiableAt (by norm_num)).hasFDerivAt
  have h2 : ∀ j k, hessAt f θ j k = fderiv ℝ (fderiv ℝ f) θ (Pi.single k 1) (Pi.single j 1) := by
    intro j k
    have := (h1.clm_apply (hasFDerivAt_const (Pi.single j 1 : Fin p → ℝ) θ)).fderiv
    show fderiv ℝ (fun y => gradAt f y j) θ (Pi.single k 1) = _
    unfold gradAt
    rw [this]
    simp
  ext j k
  rw [transpose_apply, h2, h2]
  exact hs _ _

theorem follows_iff (loss : (Fin p → ℝ) → List X → ℝ) (reg : ℝ) (data : List X) (x : X) (ε : ℝ) (θ : Fin p → ℝ)
    (h1 : DifferentiableAt ℝ (fun t => loss t data) θ) (h2 : DifferentiableAt ℝ (fun t => loss t [x]) θ) :
    HasFDerivAt (objective loss reg data x ε) (0 : (Fin p → ℝ) →L[ℝ] ℝ) θ ↔
      gradAt (fun t => loss t data) θ + reg • θ + ε • gradAt (fun t => loss t [x]) θ = 0 := by
  have hsq : HasFDerivAt (fun t : Fin p → ℝ => ∑ k, t k ^ 2) (∑ k, (2 * θ k) • ContinuousLinearMap.proj (R := ℝ) (φ := fun _ : Fin p => ℝ) k) θ := by
    apply HasFDerivAt.fun_sum
    intro k _
    have := (hasFDerivAt_apply (𝕜 := ℝ) k θ).pow 2
    simpa using this
  have hO := (h1.hasFDerivAt.add (hsq.const_mul (reg / 2))).add (h2.hasFDerivAt.const_mul ε)
  have hO' : HasFDerivAt (objective loss reg data x ε) _ θ := hO
  have hval : ∀ k, (fderiv ℝ (fun t => loss t data) θ + (reg / 2) • (∑ k, (2 * θ k) • ContinuousLinearMap.proj (R := ℝ) (φ := fun _ : Fin p => ℝ) k) +
      ε • fderiv ℝ (fun t => loss t [x]) θ) (Pi.single k 1) =
      (gradAt (fun t => loss t data) θ + reg • θ + ε • gradAt (fun t => loss t [x]) θ) k := by
    intro k
    simp only [_root_.add_apply, _root_.smul_apply, _root_.sum_apply, ContinuousLinearMap.proj_apply,
      Pi.add_apply, Pi.smul_apply, smul_eq_mul, gradAt, Pi.single_apply]
    simp
    ring
  constructor
  · intro h
    have := hO'.unique h
    funext k
    rw [← hval k, this]
    rfl
  · intro h
    have : (0 : (Fin p → ℝ) →L[ℝ] ℝ) = fderiv ℝ (fun t => loss t data) θ +
        (reg / 2) • (∑ k, (2 * θ k) • ContinuousLinearMap.proj (R := ℝ) (φ := fun _ : Fin p => ℝ) k) + ε • fderiv ℝ (fun t => loss t [x]) θ := by
      ext v
      rw [clm_eq_sum _ v, clm_eq_sum _ v]
      refine Finset.sum_congr rfl fun k _ => ?_
      rw [hval k, h]
      rfl
    rw [this]
    exact hO'

/-- The path of stationary points exists, is unique and has the derivative `-(H + reg I)⁻¹ g`. -/
theorem path_exists (loss : (Fin p → ℝ) → List X → ℝ) (reg : ℝ) (data : List X) (x : X) (θ : Fin p → ℝ)
    (hL : ContDiffAt ℝ 2 (fun t => loss t data) θ) (hx : ContDiffAt ℝ 2 (fun t => loss t [x]) θ)
    (hs : HasFDerivAt (objective loss reg data x 0) (0 : (Fin p → ℝ) →L[ℝ] ℝ) θ)
    (hdet : (hessAt (fun t => loss t data) θ + reg • (1 : Matrix (Fin p) (Fin p) ℝ)).det ≠ 0) :
    ∃ φ, Follows loss reg data x θ φ ∧
      HasDerivAt φ (-((hessAt (fun t => loss t data) θ + reg • (1 : Matrix (Fin p) (Fin p) ℝ))⁻¹ *ᵥ gradAt (fun t => loss t [x]) θ)) 0 ∧
      ∀ ψ, Follows loss reg data x θ ψ → ψ =ᶠ[𝓝 0] φ := by
  set H := hessAt (fun t => loss t data) θ + reg • (1 : Matrix (Fin p) (Fin p) ℝ) with hH
  set g := gradAt (fun t => loss t [x]) θ with hg
  have hu : IsUnit H.det := hdet.isUnit
  have hdL : ∀ᶠ t in 𝓝 θ, DifferentiableAt ℝ (fun t => loss t data) t :=
    (hL.eventually (by simp)).mono fun t ht => ht.differentiableAt (by norm_num)
  have hdx : ∀ᶠ t in 𝓝 θ, DifferentiableAt ℝ (fun t => loss t [x]) t :=
    (hx.eventually (by simp)).mono fun t ht => ht.differentiableAt (by norm_num)
  -- the gradient as a function of the weight and the parameters
  let F : ℝ × (Fin p → ℝ) → Fin p → ℝ := fun u =>
    gradAt (fun t => loss t data) u.2 + reg • u.2 + u.1 • gradAt (fun t => loss t [x]) u.2
  have hF0 : F (0, θ) = 0 := (follows_iff loss reg data x 0 θ hdL.self_of_nhds hdx.self_of_nhds).1 hs
  have hsnd : HasStrictFDerivAt (Prod.snd : ℝ × (Fin p → ℝ) → _) (ContinuousLinearMap.snd ℝ ℝ (Fin p → ℝ)) (0, θ) := hasStrictFDerivAt_snd
  have hfst : HasStrictFDerivAt (Prod.fst : ℝ × (Fin p → ℝ) → _) (ContinuousLinearMap.fst ℝ ℝ (Fin p → ℝ)) (0, θ) := hasStrictFDerivAt_fst
  have hG1 := (gradAt_strict hL).comp (0, θ) hsnd
  have hG2 := (gradAt_strict hx).comp (0, θ) hsnd
  have hF := (hG1.add (hsnd.const_smul reg)).add (hfst.smul hG2)
  obtain ⟨F'u, hF', happ⟩ : ∃ F'u : ℝ × (Fin p → ℝ) →L[ℝ] (Fin p → ℝ), HasStrictFDerivAt F F'u (0, θ) ∧
      ∀ e v, F'u (e, v) = H *ᵥ v + e • g := by
    refine ⟨_, hF, fun e v => ?_⟩
    have e1 := fderiv_gradAt hL v
    simp only [_root_.add_apply, ContinuousLinearMap.comp_apply, _root_.smul_apply, ContinuousLinearMap.coe_snd',
      ContinuousLinearMap.coe_fst', ContinuousLinearMap.smulRight_apply]
    rw [e1, hH, Matrix.add_mulVec, Matrix.smul_mulVec, Matrix.one_mulVec]
    simp [hg]
  let Hi : (Fin p → ℝ) →L[ℝ] (Fin p → ℝ) := LinearMap.toContinuousLinearMap (Matrix.mulVecLin H⁻¹)
  have hHi : ∀ v, Hi v = H⁻¹ *ᵥ v := fun _ => rfl
  have k1 : (F'u ∘L .inr ℝ ℝ (Fin p → ℝ)) ∘L Hi = .id ℝ _ := by
    refine ContinuousLinearMap.ext fun v => ?_
    simp only [ContinuousLinearMap.comp_apply, ContinuousLinearMap.inr_apply, happ, hHi, mulVec_mulVec, mul_nonsing_inv _ hu,
      one_mulVec, zero_smul, add_zero]
    rfl
  have k2 : Hi ∘L (F'u ∘L .inr ℝ ℝ (Fin p → ℝ)) = .id ℝ _ := by
    refine ContinuousLinearMap.ext fun v => ?_
    simp only [ContinuousLinearMap.comp_apply, ContinuousLinearMap.inr_apply, happ, hHi, zero_smul, add_zero, mulVec_mulVec,
      nonsing_inv_mul _ hu, one_mulVec]
    rfl
  have hinv : (F'u ∘L .inr ℝ ℝ (Fin p → ℝ)).IsInvertible := .of_inverse k1 k2
  let φ := hF'.implicitFunctionOfProdDomain hinv
  have hev := hF'.eventually_apply_eq_iff_implicitFunctionOfProdDomain hinv
  have hφ0 : φ 0 = θ := hev.self_of_nhds.1 rfl
  have hder := hF'.hasStrictFDerivAt_implicitFunctionOfProdDomain hinv
  have hcont : ContinuousAt φ 0 := hder.continuousAt
  have hz := hF'.eventually_apply_implicitFunctionOfProdDomain hinv
  have hnear : ∀ ψ : ℝ → Fin p → ℝ, ψ 0 = θ → ContinuousAt ψ 0 → ∀ᶠ ε in 𝓝 (0 : ℝ),
      (HasFDerivAt (objective loss reg data x ε) (0 : (Fin p → ℝ) →L[ℝ] ℝ) (ψ ε) ↔ F (ε, ψ ε) = 0) := by
    intro ψ h0 hc
    have ht : Filter.Tendsto ψ (𝓝 0) (𝓝 θ) := by simpa [ContinuousAt, h0] using hc
    filter_upwards [ht.eventually hdL, ht.eventually hdx] with ε a b
    exact follows_iff loss reg data x ε (ψ ε) a b
  refine ⟨φ, ⟨hφ0, hcont, ?_⟩, ?_, ?_⟩
  · filter_upwards [hnear φ hφ0 hcont, hz] with ε a b
    exact a.2 (b.trans hF0)
  · have := hder.hasFDerivAt.hasDerivAt
    have hval : (-(F'u ∘L .inr ℝ ℝ (Fin p → ℝ)).inverse ∘L (F'u ∘L .inl ℝ ℝ (Fin p → ℝ))) 1 = -(H⁻¹ *ᵥ g) := by
      rw [ContinuousLinearMap.inverse_eq k1 k2]
      simp [happ, hHi]
    rw [hval] at this
    exact this
  · rintro ψ ⟨h0, hc, hst⟩
    have ht : Filter.Tendsto (fun ε => (ε, ψ ε)) (𝓝 0) (𝓝 ((0 : ℝ), θ)) := by
      have := (continuousAt_id (x := (0 : ℝ))).prodMk hc
      simpa [ContinuousAt, h0] using this
    filter_upwards [hnear ψ h0 hc, hst, ht.eventually hev] with ε a b d
    exact (d.1 ((a.1 b).trans hF0.symm)).symm

/-- What every theorem below assumes of one checkpoint `θ`, one batch, one training sample: the losses are twice continuously differentiable near
`θ`, `θ` is a stationary point of the regularised loss of the batch and the regularised Hessian is invertible. -/
structure Regular (loss : (Fin p → ℝ) → List X → ℝ) (reg : ℝ) (data : List X) (x : X) (θ : Fin p → ℝ) : Prop where
  smooth : ContDiffAt ℝ 2 (fun t => loss t data) θ
  smooth1 : ContDiffAt ℝ 2 (fun t => loss t [x]) θ
  stationary : HasFDerivAt (objective loss reg data x 0) (0 : (Fin p → ℝ) →L[ℝ] ℝ) θ
  invertible : (hessAt (fun t => loss t data) θ + reg • (1 : Matrix (Fin p) (Fin p) ℝ)).det ≠ 0

/-- The derivative of the target along every path of stationary points. -/
theorem path_target {loss : (Fin p → ℝ) → List X → ℝ} {reg : ℝ} {data : List X} {x : X} {θ : Fin p → ℝ} (hR : Regular loss reg data x θ)
    (f : (Fin p → ℝ) → ℝ) (hf : DifferentiableAt ℝ f θ) :
    (∃ φ, Follows loss reg data x θ φ) ∧ ∀ φ, Follows loss reg data x θ φ →
      HasDerivAt (fun ε => f (φ ε)) (-(gradAt (fun t => loss t [x]) θ ⬝ᵥ
        (hessAt (fun t => loss t data) θ + reg • (1 : Matrix (Fin p) (Fin p) ℝ))⁻¹ *ᵥ gradAt f θ)) 0 := by
  obtain ⟨φ, h1, h2, h3⟩ := path_exists loss reg data x θ hR.smooth hR.smooth1 hR.stationary hR.invertible
  refine ⟨⟨φ, h1⟩, fun ψ hψ => ?_⟩
  have heq := h3 ψ hψ
  have hd : HasDerivAt ψ _ 0 := h2.congr_of_eventuallyEq heq
  have hf' : HasFDerivAt f (fderiv ℝ f θ) (ψ 0) := by
    rw [hψ.1]
    exact hf.hasFDerivAt
  have := hf'.comp_hasDerivAt 0 hd
  have hval : fderiv ℝ f θ (-((hessAt (fun t => loss t data) θ + reg • (1 : Matrix (Fin p) (Fin p) ℝ))⁻¹ *ᵥ gradAt (fun t => loss t [x]) θ)) =
      -(gradAt (fun t => loss t [x]) θ ⬝ᵥ (hessAt (fun t => loss t data) θ + reg • (1 : Matrix (Fin p) (Fin p) ℝ))⁻¹ *ᵥ gradAt f θ) := by
    rw [map_neg, fderiv_eq_dot]
    congr 1
    have hsym : ((hessAt (fun t => loss t data) θ + reg • (1 : Matrix (Fin p) (Fin p) ℝ))⁻¹)ᵀ =
        (hessAt (fun t => loss t data) θ + reg • (1 : Matrix (Fin p) (Fin p) ℝ))⁻¹ := by
      rw [transpose_nonsing_inv, transpose_add, transpose_smul, transpose_one, hessAt_symm hR.smooth]
    rw [dotProduct_mulVec, ← mulVec_transpose, hsym, dotProduct_comm]
  rw [hval] at this
  exact this

/-! ### C140 -/

/-- **C140.** With every checkpoint a stationary point of the regularised loss of each batch of the cached loader: entry `(i, j)` of the
explicit influence attribution is minus the mean over the checkpoints of the sum over the cached batches of the rate at which the target
of test sample `j` changes along the stationary points of that batch's objective when training sample `i` gets additional weight. The
path of stationary points exists and the rate is the same along each of them. -/
theorem C140_if_is_derivative (loss : (Fin p → ℝ) → List X → ℝ) (target : (Fin p → ℝ) → X → ℝ) (reg : ℝ) (ckpts : List (Fin p → ℝ))
    (full tr te : Loader X) (h1 : 0 < tr.bs) (h2 : 0 < te.bs) (s1 : tr.supported = true) (s2 : te.supported = true) (s3 : full.supported = true)
    (hR : ∀ θ ∈ ckpts, ∀ b < full.nb, ∀ x ∈ tr.data, Regular loss reg (full.batch b) x θ) (htr : tr.data ≠ [])
    (hT : ∀ θ ∈ ckpts, ∀ y ∈ te.data, DifferentiableAt ℝ (fun t => target t y) θ) :
    ∃ M, (attribute' (taskSub loss target reg) ckpts (some full) none tr te).2 = .ok M ∧
      ∀ i (hi : i < tr.data.length) j (hj : j < te.data.length), ∃ D : (Fin p → ℝ) → ℕ → ℝ,
        (∀ θ ∈ ckpts, ∀ b < full.nb, (∃ φ, Follows loss reg (full.batch b) tr.data[i] θ φ) ∧
          ∀ φ, Follows loss reg (full.batch b) tr.data[i] θ φ → HasDerivAt (fun ε => target (φ ε) te.data[j]) (D θ b) 0) ∧
        M.f i j = -((ckpts.map fun θ => ∑ b ∈ Finset.range full.nb, D θ b).sum / (ckpts.length : ℝ)) := by
  obtain ⟨x0, hx0⟩ := List.exists_mem_of_ne_nil _ htr
  obtain ⟨M, e, f⟩ := C08_explicit_attribute (fun θ x => gradAt (fun t => loss t [x]) θ) (fun θ y => gradAt (fun t => target t y) θ)
    (fun θ b => hessAt (fun t => loss t b) θ) reg ckpts full tr te h1 h2 s1 s2 s3 (fun θ hθ b hb => (hR θ hθ b hb x0 hx0).invertible)
  refine ⟨M, e, fun i hi j hj => ⟨fun θ b => -(gradAt (fun t => loss t [tr.data[i]]) θ ⬝ᵥ
    (hessAt (fun t => loss t (full.batch b)) θ + reg • (1 : Matrix (Fin p) (Fin p) ℝ))⁻¹ *ᵥ gradAt (fun t => target t te.data[j]) θ),
    fun θ hθ b hb => path_target (hR θ hθ b hb _ (List.getElem_mem hi)) _ (hT θ hθ _ (List.getElem_mem hj)), ?_⟩⟩
  rw [f i hi j hj, ← neg_div]
  congr 1
  rw [show ∀ l : List ℝ, -l.sum = (l.map (fun a => -a)).sum from fun l => List.sum_neg l, List.map_map]
  congr 1
  refine List.map_congr_left fun θ _ => ?_
  simp only [Function.comp_apply, Finset.sum_neg_distrib, neg_neg]
  rw [dotProduct_sum]

/-- **C140.** One checkpoint and the whole training set in one batch, the documented use: the score is minus the rate at which the target changes. -/
theorem C140_single (loss : (Fin p → ℝ) → List X → ℝ) (target : (Fin p → ℝ) → X → ℝ) (reg : ℝ) (θ : Fin p → ℝ) (data : List X)
    (bs bs1 bs2 : ℕ) (te : List X) (hd : data ≠ []) (hbs : data.length ≤ bs) (h1 : 0 < bs1) (h2 : 0 < bs2)
    (hR : ∀ x ∈ data, Regular loss reg data x θ) (hT : ∀ y ∈ te, DifferentiableAt ℝ (fun t => target t y) θ) :
    ∃ M, (attribute' (taskSub loss target reg) [θ] (some ⟨data, bs, true⟩) none ⟨data, bs1, true⟩ ⟨te, bs2, true⟩).2 = .ok M ∧
      ∀ i (hi : i < data.length) j (hj : j < te.length), (∃ φ, Follows loss reg data data[i] θ φ) ∧
        ∀ φ, Follows loss reg data data[i] θ φ → HasDerivAt (fun ε => target (φ ε) te[j]) (-M.f i j) 0 := by
  have hlen : 0 < data.length := List.length_pos_iff.2 hd
  have hnb : (⟨data, bs, true⟩ : Loader X).nb = 1 := by
    show (data.length + bs - 1) / bs = 1
    exact Nat.div_eq_of_lt_le (by omega) (by omega)
  have hb0 : (⟨data, bs, true⟩ : Loader X).batch 0 = data := by
    simp [Loader.batch, batchAt, List.take_of_length_le hbs]
  obtain ⟨M, e, f⟩ := C140_if_is_derivative loss target reg [θ] ⟨data, bs, true⟩ ⟨data, bs1, true⟩ ⟨te, bs2, true⟩ h1 h2 rfl rfl rfl (by
      intro t ht b hb x hx
      obtain rfl : t = θ := by simpa using ht
      have : b = 0 := by omega
      rw [this, hb0]
      exact hR x hx) hd (by
      intro t ht y hy
      obtain rfl : t = θ := by simpa using ht
      exact hT y hy)
  refine ⟨M, e, fun i hi j hj => ?_⟩
  obtain ⟨D, hD, hM⟩ := f i hi j hj
  have := hD θ (by simp) 0 (by omega)
  rw [hb0] at this
  refine ⟨this.1, fun φ hφ => ?_⟩
  have h := this.2 φ hφ
  rw [hM, hnb]
  simpa using h

/-- **C140.** When the objectives are convex the stationary points are the minimisers, that is the models retrained with the changed weight. -/
theorem C140_retrained (loss : (Fin p → ℝ) → List X → ℝ) (reg : ℝ) (data : List X) (x : X) (θ : Fin p → ℝ) (φ : ℝ → Fin p → ℝ)
    (hc : ∀ᶠ ε in 𝓝 (0 : ℝ), ConvexOn ℝ Set.univ (objective loss reg data x ε)) (hφ : Follows loss reg data x θ φ) :
    ∀ᶠ ε in 𝓝 (0 : ℝ), ∀ t, objective loss reg data x ε (φ ε) ≤ objective loss reg data x ε t := by
  filter_upwards [hc, hφ.2.2] with ε a b t
  let g : ℝ →ᵃ[ℝ] (Fin p → ℝ) := AffineMap.lineMap (φ ε) t
  have hg := a.comp_affineMap g
  have hd : HasDerivAt (fun s : ℝ => g s) (t - φ ε) 0 := AffineMap.hasDerivAt_lineMap
  have hb : HasFDerivAt (objective loss reg data x ε) (0 : (Fin p → ℝ) →L[ℝ] ℝ) (g 0) := by
    simpa [g] using b
  have h0 := hb.comp_hasDerivAt 0 hd
  have h2 := hg.le_slope_of_hasDerivAt (x := 0) (y := 1) trivial trivial one_pos h0
  simpa [slope, g] using h2

/-- **C140.** Conversely minimisers that depend continuously on the weight follow the stationary points. -/
theorem C140_minimisers (loss : (Fin p → ℝ) → List X → ℝ) (reg : ℝ) (data : List X) (x : X) (θ : Fin p → ℝ) (φ : ℝ → Fin p → ℝ)
    (hL : ContDiffAt ℝ 2 (fun t => loss t data) θ) (hx : ContDiffAt ℝ 2 (fun t => loss t [x]) θ)
    (h0 : φ 0 = θ) (hc : ContinuousAt φ 0) (hm : ∀ ε t, objective loss reg data x ε (φ ε) ≤ objective loss reg data x ε t) :
    Follows loss reg data x θ φ := by
  refine ⟨h0, hc, ?_⟩
  have ht : Filter.Tendsto φ (𝓝 0) (𝓝 θ) := by simpa [ContinuousAt, h0] using hc
  filter_upwards [ht.eventually (hL.eventually (by simp)), ht.eventually (hx.eventually (by simp))] with ε a b
  have hd : DifferentiableAt ℝ (objective loss reg data x ε) (φ ε) := by
    have a' := a.differentiableAt (by norm_num)
    have b' := b.differentiableAt (by norm_num)
    unfold objective
    fun_prop
  have hmin : IsLocalMin (objective loss reg data x ε) (φ ε) := Filter.Eventually.of_forall (hm ε)
  have := IsLocalMin.fderiv_eq_zero hmin
  rw [← this]
  exact hd.hasFDerivAt

/-! ### C141 -/

/-- **C141.** TracIn's score is the checkpoint-weighted sum of the rates at which the test sample's target decreases when the
checkpoint takes a gradient descent step on the training sample's loss. -/
theorem C141_tracin_is_step_effect (loss : (Fin p → ℝ) → List X → ℝ) (target : (Fin p → ℝ) → X → ℝ) (ckpts : List (Fin p → ℝ)) (weights : List ℝ)
    (tr te : Loader X) (hl : ckpts.length = weights.length) (h1 : 0 < tr.bs) (h2 : 0 < te.bs) (s1 : tr.supported = true) (s2 : te.supported = true)
    (hT : ∀ θ ∈ ckpts, ∀ y ∈ te.data, DifferentiableAt ℝ (fun t => target t y) θ) :
    ∃ M, TracIn.attribute' (taskTracIn loss target ckpts weights) tr te = .ok M ∧
      ∀ i (hi : i < tr.data.length) j (hj : j < te.data.length), ∃ D : (Fin p → ℝ) → ℝ,
        (∀ θ ∈ ckpts, HasDerivAt (fun η : ℝ => target (fun k => θ k - η * fderiv ℝ (fun t => loss t [tr.data[i]]) θ (Pi.single k 1)) te.data[j]) (D θ) 0) ∧
        M.f i j = -((ckpts.zip weights).map fun cw => cw.2 * D cw.1).sum := by
  obtain ⟨M, e, -, -, f⟩ := TracIn.C09_tracin_entry (taskTracIn loss target ckpts weights) tr te hl h1 h2 s1 s2
  refine ⟨M, e, fun i hi j hj => ⟨fun θ => -(gradAt (fun t => loss t [tr.data[i]]) θ ⬝ᵥ gradAt (fun t => target t te.data[j]) θ), ?_, ?_⟩⟩
  · intro θ hθ
    have hd : HasDerivAt (fun η : ℝ => fun k => θ k - η * gradAt (fun t => loss t [tr.data[i]]) θ k)
        (fun k => -gradAt (fun t => loss t [tr.data[i]]) θ k) 0 := by
      rw [hasDerivAt_pi]
      intro k
      have := ((hasDerivAt_id (0 : ℝ)).mul_const (gradAt (fun t => loss t [tr.data[i]]) θ k)).const_sub (θ k)
      simpa using this
    have hf : HasFDerivAt (fun t => target t te.data[j]) (fderiv ℝ (fun t => target t te.data[j]) θ)
        (fun k => θ k - 0 * gradAt (fun t => loss t [tr.data[i]]) θ k) := by
      simpa using (hT θ hθ _ (List.getElem_mem hj)).hasFDerivAt
    have := hf.comp_hasDerivAt 0 hd
    rw [fderiv_eq_dot] at this
    have hv : gradAt (fun t => target t te.data[j]) θ ⬝ᵥ (fun k => -gradAt (fun t => loss t [tr.data[i]]) θ k) =
        -(gradAt (fun t => loss t [tr.data[i]]) θ ⬝ᵥ gradAt (fun t => target t te.data[j]) θ) := by
      rw [dotProduct_comm]
      exact neg_dotProduct _ _
    rw [hv] at this
    exact this
  · rw [f i hi j hj]
    rw [show ∀ l : List ℝ, -l.sum = (l.map (fun a => -a)).sum from fun l => List.sum_neg l, List.map_map]
    congr 1
    refine List.map_congr_left fun cw _ => ?_
    simp only [Function.comp_apply, mul_neg, neg_neg]
    rfl

/-! ### A case meeting the hypotheses -/

/-- Estimating a mean by least squares: `Σ (θ - x)² / 2`. -/
noncomputable def meanLoss (θ : Fin 1 → ℝ) (b : List ℝ) : ℝ := (b.map fun x => (θ 0 - x) ^ 2 / 2).sum

theorem meanLoss_smooth (b : List ℝ) : ContDiff ℝ 2 fun t => meanLoss t b := by
  induction b with
  | nil => exact contDiff_const
  | cons x b ih =>
    have : (fun t => meanLoss t (x :: b)) = fun t => (t 0 - x) ^ 2 / 2 + meanLoss t b := by
      funext t
      simp [meanLoss]
    rw [this]
    fun_prop

theorem meanLoss_grad (b : List ℝ) (θ : Fin 1 → ℝ) : gradAt (fun t => meanLoss t b) θ = fun _ => b.length * θ 0 - b.sum := by
  induction b with
  | nil =>
    funext k
    simp [gradAt, meanLoss]
  | cons x b ih =>
    have h0 : (fun t => meanLoss t (x :: b)) = fun t => (t 0 - x) ^ 2 / 2 + meanLoss t b := by
      funext t
      simp [meanLoss]
    have h1 : HasFDerivAt (fun t : Fin 1 → ℝ => (t 0 - x) ^ 2 / 2) ((θ 0 - x) • ContinuousLinearMap.proj (R := ℝ) (φ := fun _ : Fin 1 => ℝ) 0) θ := by
      have := (((hasFDerivAt_apply (𝕜 := ℝ) (0 : Fin 1) θ).sub_const x).pow 2).mul_const (1 / 2)
      have e1 : (fun t : Fin 1 → ℝ => (t 0 - x) ^ 2 / 2) = fun t => (t 0 - x) ^ 2 * (1 / 2) := by
        funext t
        ring
      have e2 : (θ 0 - x) • ContinuousLinearMap.proj (R := ℝ) (φ := fun _ : Fin 1 => ℝ) 0 =
          (1 / 2 : ℝ) • (2 • (θ 0 - x) ^ (2 - 1)) • ContinuousLinearMap.proj (R := ℝ) (φ := fun _ : Fin 1 => ℝ) 0 := by
        rw [smul_smul]
        congr 1
        simp
      rw [e1, e2]
      exact this
    have h2 : HasFDerivAt (fun t => meanLoss t b) (fderiv ℝ (fun t => meanLoss t b) θ) θ :=
      ((meanLoss_smooth b).differentiable (by norm_num) θ).hasFDerivAt
    funext k
    have ih' := congrFun ih k
    obtain rfl : k = 0 := Subsingleton.elim _ _
    rw [gradAt, h0, (h1.fun_add h2).fderiv]
    rw [gradAt] at ih'
    simp [ih']
    ring

theorem meanLoss_hess (b : List ℝ) (θ : Fin 1 → ℝ) : hessAt (fun t => meanLoss t b) θ = Matrix.of fun _ _ => (b.length : ℝ) := by
  ext j k
  show fderiv ℝ (fun y => gradAt (fun t => meanLoss t b) y j) θ (Pi.single k 1) = b.length
  have h0 : (fun y => gradAt (fun t => meanLoss t b) y j) = fun y => b.length * y 0 - b.sum := by
    funext y
    rw [meanLoss_grad]
  rw [h0, (((hasFDerivAt_apply (𝕜 := ℝ) (0 : Fin 1) θ).const_mul (b.length : ℝ)).sub_const b.sum).fderiv]
  obtain rfl : k = 0 := Subsingleton.elim _ _
  simp

/-- Data 1 and 3, estimate 2: the hypotheses of C140 hold for every training sample. -/
example : ∀ x ∈ [(1 : ℝ), 3], Regular meanLoss 0 [1, 3] x (fun _ => 2) := by
  intro x _
  refine ⟨(meanLoss_smooth _).contDiffAt, (meanLoss_smooth _).contDiffAt, ?_, ?_⟩
  · rw [follows_iff _ _ _ _ _ _ ((meanLoss_smooth _).differentiable (by norm_num) _) ((meanLoss_smooth _).differentiable (by norm_num) _)]
    rw [meanLoss_grad]
    funext k
    simp
    norm_num
  · rw [meanLoss_hess]
    simp

example : ∀ y ∈ [(5 : ℝ)], DifferentiableAt ℝ (fun t => meanLoss t [y]) (fun _ => 2) := fun _ _ =>
  (meanLoss_smooth _).differentiable (by norm_num) _

end Verif.Attr
