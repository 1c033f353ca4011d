import Verif.Attr.ConvexProps
import Mathlib.Data.List.Perm.Basic
import Mathlib.LinearAlgebra.Matrix.NonsingularInverse
import Mathlib.Tactic.LinearCombination

/-!
# C173: influence scores and actual leave-one-out retraining for least squares

`IFAttributorExplicit` (`influence_function.py` lines 35-132) on a linear model with squared loss and an L2 penalty; the actual effect of removing
a sample (`ground_truth.py`, `retrain_loo`).
-/

namespace Verif.Attr

open Matrix Topology

variable {p : ℕ}

/-! ### Specification -/

/-- A sample: features and response. -/
abbrev Obs (p : ℕ) := (Fin p → ℝ) × ℝ

/-- The loss of a batch, `mean ½ (x·θ - y)²`. -/
noncomputable def sqLoss (θ : Fin p → ℝ) (b : List (Obs p)) : ℝ := (b.map fun s => (s.1 ⬝ᵥ θ - s.2) ^ 2 / 2).sum / (b.length : ℝ)

/-- The objective of training on the samples `b` out of `n`, with an L2 penalty: `1/n Σ ½ (x·θ - y)² + reg/2 |θ|²`. -/
noncomputable def ridge (reg : ℝ) (n : ℕ) (b : List (Obs p)) (θ : Fin p → ℝ) : ℝ :=
  (b.map fun s => (s.1 ⬝ᵥ θ - s.2) ^ 2 / 2).sum / (n : ℝ) + reg / 2 * ∑ k, θ k ^ 2

/-- `θ` is the result of training: the only minimiser. -/
def Trained (reg : ℝ) (n : ℕ) (b : List (Obs p)) (θ : Fin p → ℝ) : Prop := ∀ t, t ≠ θ → ridge reg n b θ < ridge reg n b t

/-- The regularised second moments of the features. -/
noncomputable def gram (reg : ℝ) (data : List (Obs p)) : Matrix (Fin p) (Fin p) ℝ :=
  (data.length : ℝ)⁻¹ • (data.map fun s => vecMulVec s.1 s.1).sum + reg • (1 : Matrix (Fin p) (Fin p) ℝ)

/-- The leverage of a sample, times the number of samples. -/
noncomputable def leverage (reg : ℝ) (data : List (Obs p)) (x : Fin p → ℝ) : ℝ := x ⬝ᵥ (gram reg data)⁻¹ *ᵥ x

/-! ### Helper lemmas -/

/-- The gradient of the sum of losses. -/
noncomputable def gsum (b : List (Obs p)) (θ : Fin p → ℝ) : Fin p → ℝ := (b.map fun s => (s.1 ⬝ᵥ θ - s.2) • s.1).sum

lemma hasFDerivAt_dot (x θ : Fin p → ℝ) :
    HasFDerivAt (fun t : Fin p → ℝ => x ⬝ᵥ t) (∑ k, x k • ContinuousLinearMap.proj (R := ℝ) (φ := fun _ : Fin p => ℝ) k) θ := by
  unfold dotProduct
  apply HasFDerivAt.fun_sum
  intro k _
  exact (hasFDerivAt_apply (𝕜 := ℝ) k θ).const_mul (x k)

lemma gradAt_of {f : (Fin p → ℝ) → ℝ} {g θ : Fin p → ℝ}
    (h : HasFDerivAt f (∑ k, g k • ContinuousLinearMap.proj (R := ℝ) (φ := fun _ : Fin p => ℝ) k) θ) : gradAt f θ = g := by
  funext k
  unfold gradAt
  rw [h.fderiv]
  simp [Pi.single_apply]

lemma sumSq_deriv (b : List (Obs p)) (θ : Fin p → ℝ) :
    HasFDerivAt (fun t => (b.map fun s => (s.1 ⬝ᵥ t - s.2) ^ 2 / 2).sum)
      (∑ k, gsum b θ k • ContinuousLinearMap.proj (R := ℝ) (φ := fun _ : Fin p => ℝ) k) θ := by
  induction b with
  | nil => simpa [gsum] using hasFDerivAt_const (0 : ℝ) θ
  | cons s b ih =>
    have h1 := ((((hasFDerivAt_dot s.1 θ).sub_const s.2).pow 2).mul_const (1 / 2)).add ih
    have e : (fun t : Fin p → ℝ => ((s :: b).map fun s => (s.1 ⬝ᵥ t - s.2) ^ 2 / 2).sum) =
        (fun t => (s.1 ⬝ᵥ t - s.2) ^ 2 * (1 / 2)) + fun t => (b.map fun s => (s.1 ⬝ᵥ t - s.2) ^ 2 / 2).sum := by
      funext t
      simp only [List.map_cons, List.sum_cons, Pi.add_apply]
      ring
    rw [e]
    refine h1.congr_fderiv ?_
    ext v
    simp only [gsum, List.map_cons, List.sum_cons, _root_.add_apply, _root_.smul_apply, _root_.sum_apply, ContinuousLinearMap.proj_apply,
      Pi.add_apply, Pi.smul_apply, smul_eq_mul, add_mul, Finset.sum_add_distrib]
    congr 1
    rw [Finset.mul_sum, Finset.mul_sum]
    refine Finset.sum_congr rfl fun k _ => ?_
    simp
    ring

lemma sqLoss_grad (b : List (Obs p)) (θ : Fin p → ℝ) : gradAt (fun t => sqLoss t b) θ = (b.length : ℝ)⁻¹ • gsum b θ := by
  apply gradAt_of
  have h := (sumSq_deriv b θ).mul_const (b.length : ℝ)⁻¹
  refine (h.congr_fderiv ?_)
  ext v
  simp only [_root_.smul_apply, _root_.sum_apply, ContinuousLinearMap.proj_apply, Pi.smul_apply, smul_eq_mul, Finset.mul_sum]
  exact Finset.sum_congr rfl fun k _ => by ring

lemma gsum_add (b : List (Obs p)) (θ v : Fin p → ℝ) : gsum b (θ + v) = gsum b θ + (b.map fun s => vecMulVec s.1 s.1).sum *ᵥ v := by
  induction b with
  | nil => simp [gsum]
  | cons s b ih =>
    simp only [gsum, List.map_cons, List.sum_cons, add_mulVec] at ih ⊢
    rw [ih]
    have : vecMulVec s.1 s.1 *ᵥ v = (s.1 ⬝ᵥ v) • s.1 := by
      ext k
      simp [mulVec, vecMulVec, dotProduct, Finset.sum_mul]
      exact Finset.sum_congr rfl fun i _ => by ring
    rw [this, dotProduct_add, add_sub_right_comm, add_smul]
    abel

lemma sqLoss_hess (b : List (Obs p)) (θ : Fin p → ℝ) :
    hessAt (fun t => sqLoss t b) θ = (b.length : ℝ)⁻¹ • (b.map fun s => vecMulVec s.1 s.1).sum := by
  set S := (b.map fun s => vecMulVec s.1 s.1).sum with hS
  ext j k
  show fderiv ℝ (fun y => gradAt (fun t => sqLoss t b) y j) θ (Pi.single k 1) = _
  have h0 : (fun y => gradAt (fun t => sqLoss t b) y j) = fun y => (b.length : ℝ)⁻¹ * (gsum b 0 j + S j ⬝ᵥ y) := by
    funext y
    rw [sqLoss_grad]
    have := gsum_add b 0 y
    rw [zero_add] at this
    rw [this]
    rfl
  rw [h0, (((hasFDerivAt_dot (S j) θ).const_add (gsum b 0 j)).const_mul (b.length : ℝ)⁻¹).fderiv]
  simp [Pi.single_apply]

lemma gram_quad (reg : ℝ) (data : List (Obs p)) (v : Fin p → ℝ) :
    v ⬝ᵥ gram reg data *ᵥ v = (data.length : ℝ)⁻¹ * (data.map fun s => (s.1 ⬝ᵥ v) ^ 2).sum + reg * (v ⬝ᵥ v) := by
  have h : ∀ b : List (Obs p), v ⬝ᵥ (b.map fun s => vecMulVec s.1 s.1).sum *ᵥ v = (b.map fun s => (s.1 ⬝ᵥ v) ^ 2).sum := by
    intro b
    induction b with
    | nil => simp
    | cons s b ih =>
      simp only [List.map_cons, List.sum_cons, add_mulVec, dotProduct_add, ih]
      have : vecMulVec s.1 s.1 *ᵥ v = (s.1 ⬝ᵥ v) • s.1 := by
        ext k
        simp [mulVec, vecMulVec, dotProduct, Finset.sum_mul]
        exact Finset.sum_congr rfl fun i _ => by ring
      rw [this, dotProduct_smul, dotProduct_comm v, smul_eq_mul]
      ring
  unfold gram
  rw [add_mulVec, dotProduct_add, smul_mulVec, smul_mulVec, one_mulVec, dotProduct_smul, dotProduct_smul, h]
  rfl

lemma sq_sum_nonneg (data : List (Obs p)) (v : Fin p → ℝ) : 0 ≤ (data.map fun s => (s.1 ⬝ᵥ v) ^ 2).sum :=
  List.sum_nonneg fun a ha => by
    obtain ⟨s, -, rfl⟩ := List.mem_map.1 ha
    exact sq_nonneg _

lemma gram_det {reg : ℝ} (hr : 0 < reg) (data : List (Obs p)) : (gram reg data).det ≠ 0 := by
  intro h0
  obtain ⟨v, hv, hz⟩ := Matrix.exists_mulVec_eq_zero_iff.2 h0
  have h1 := gram_quad reg data v
  rw [hz, dotProduct_zero] at h1
  have h2 : 0 ≤ (data.length : ℝ)⁻¹ * (data.map fun s => (s.1 ⬝ᵥ v) ^ 2).sum := mul_nonneg (by positivity) (sq_sum_nonneg _ _)
  have h3 : 0 ≤ v ⬝ᵥ v := Finset.sum_nonneg fun k _ => mul_self_nonneg _
  have h5 : reg * (v ⬝ᵥ v) = 0 := by
    have := mul_nonneg hr.le h3
    linarith
  rcases mul_eq_zero.1 h5 with h | h
  · exact hr.ne' h
  · exact hv (dotProduct_self_eq_zero.1 h)

lemma gram_symm (reg : ℝ) (data : List (Obs p)) : (gram reg data)ᵀ = gram reg data := by
  have h : ∀ b : List (Obs p), ((b.map fun s => vecMulVec s.1 s.1).sum)ᵀ = (b.map fun s => vecMulVec s.1 s.1).sum := by
    intro b
    induction b with
    | nil => simp
    | cons s b ih =>
      simp only [List.map_cons, List.sum_cons, transpose_add, ih, transpose_vecMulVec]
  unfold gram
  rw [transpose_add, transpose_smul, transpose_smul, transpose_one, h]

/-- A stationary point is the only minimiser. -/
lemma trained_of_stationary {reg : ℝ} (hr : 0 < reg) (n : ℕ) (b : List (Obs p)) (θ : Fin p → ℝ)
    (h : (n : ℝ)⁻¹ • gsum b θ + reg • θ = 0) : Trained reg n b θ := by
  intro t ht
  have e : ∀ b : List (Obs p), (b.map fun s => (s.1 ⬝ᵥ t - s.2) ^ 2 / 2).sum = (b.map fun s => (s.1 ⬝ᵥ θ - s.2) ^ 2 / 2).sum +
      gsum b θ ⬝ᵥ (t - θ) + (b.map fun s => (s.1 ⬝ᵥ (t - θ)) ^ 2).sum / 2 := by
    intro b
    induction b with
    | nil => simp [gsum]
    | cons s b ih =>
      simp only [gsum, List.map_cons, List.sum_cons, add_dotProduct, smul_dotProduct, smul_eq_mul] at ih ⊢
      rw [ih]
      have hd : s.1 ⬝ᵥ t = s.1 ⬝ᵥ θ + s.1 ⬝ᵥ (t - θ) := by rw [dotProduct_sub]; ring
      rw [hd]
      ring
  have h1 : ((n : ℝ)⁻¹ • gsum b θ + reg • θ) ⬝ᵥ (t - θ) = 0 := by rw [h, zero_dotProduct]
  rw [add_dotProduct, smul_dotProduct, smul_dotProduct, smul_eq_mul, smul_eq_mul] at h1
  have h2 : ∑ k, t k ^ 2 = ∑ k, θ k ^ 2 + 2 * (θ ⬝ᵥ (t - θ)) + (t - θ) ⬝ᵥ (t - θ) := by
    simp only [dotProduct, Finset.mul_sum, ← Finset.sum_add_distrib, Pi.sub_apply]
    exact Finset.sum_congr rfl fun k _ => by ring
  have h3 : 0 < (t - θ) ⬝ᵥ (t - θ) := by
    have h0 : 0 ≤ (t - θ) ⬝ᵥ (t - θ) := Finset.sum_nonneg fun k _ => mul_self_nonneg _
    refine lt_of_le_of_ne h0 fun hc => ht ?_
    exact sub_eq_zero.1 (dotProduct_self_eq_zero.1 hc.symm)
  have h4 := sq_sum_nonneg b (t - θ)
  have h5 : 0 ≤ (n : ℝ)⁻¹ * ((b.map fun s => (s.1 ⬝ᵥ (t - θ)) ^ 2).sum / 2) := mul_nonneg (by positivity) (by positivity)
  unfold ridge
  rw [e b, h2]
  simp only [div_eq_mul_inv _ (n : ℝ)]
  nlinarith [mul_pos hr h3]

lemma lev_bounds {reg : ℝ} (hr : 0 < reg) (data : List (Obs p)) (s : Obs p) (hs : s ∈ data) :
    0 ≤ leverage reg data s.1 ∧ leverage reg data s.1 < data.length := by
  set A := gram reg data with hA
  set u := A⁻¹ *ᵥ s.1 with hu
  have hdet : IsUnit A.det := (gram_det hr data).isUnit
  have hAu : A *ᵥ u = s.1 := by rw [hu, mulVec_mulVec, mul_nonsing_inv _ hdet, one_mulVec]
  have hl : leverage reg data s.1 = s.1 ⬝ᵥ u := rfl
  have hq := gram_quad reg data u
  rw [← hA, hAu, dotProduct_comm, ← hl] at hq
  have hn : (0 : ℝ) < data.length := by
    have := List.length_pos_of_mem hs
    exact_mod_cast this
  have hsum : (s.1 ⬝ᵥ u) ^ 2 ≤ (data.map fun s => (s.1 ⬝ᵥ u) ^ 2).sum :=
    List.single_le_sum (fun a ha => by
      obtain ⟨s, -, rfl⟩ := List.mem_map.1 ha
      exact sq_nonneg _) _ (List.mem_map_of_mem hs)
  have huu : 0 ≤ u ⬝ᵥ u := Finset.sum_nonneg fun k _ => mul_self_nonneg _
  have h0 : 0 ≤ leverage reg data s.1 := by
    rw [hq]
    have := sq_sum_nonneg data u
    positivity
  refine ⟨h0, ?_⟩
  rw [← hl] at hsum
  have h1 : (data.length : ℝ)⁻¹ * leverage reg data s.1 ^ 2 ≤ leverage reg data s.1 - reg * (u ⬝ᵥ u) := by
    have := mul_le_mul_of_nonneg_left hsum (inv_nonneg.2 hn.le)
    linarith
  rcases h0.eq_or_lt with h2 | h2
  · rw [← h2]; exact hn
  · have hu0 : 0 < u ⬝ᵥ u := by
      refine lt_of_le_of_ne huu fun hc => ?_
      have : u = 0 := dotProduct_self_eq_zero.1 hc.symm
      rw [hl, this, dotProduct_zero] at h2
      exact lt_irrefl _ h2
    have h3 : (data.length : ℝ)⁻¹ * leverage reg data s.1 ^ 2 < leverage reg data s.1 := by
      have := mul_pos hr hu0
      linarith
    rw [inv_mul_lt_iff₀ hn, sq] at h3
    exact lt_of_mul_lt_mul_right h3 h2.le

/-! ### Property -/

/-- **C173.** Ridge regression on all of `data` in one Hessian batch, any batch sizes for the scores, target function the prediction `x·θ`. Training has one result `θ`, with
and without any sample. Removing sample `i` changes the prediction on a test sample by exactly its score divided by `n - h`, where `0 ≤ h < n` is `n` times the
leverage of the removed sample. So the score divided by `n` has the right sign and underestimates the size. -/
theorem C173_leave_one_out (reg : ℝ) (hr : 0 < reg) (data te : List (Obs p)) (bs bs1 bs2 : ℕ) (hd : data ≠ []) (hbs : data.length ≤ bs) (h1 : 0 < bs1)
    (h2 : 0 < bs2) :
    ∃ θ, Trained reg data.length data θ ∧
      ∃ M, (attribute' (taskSub sqLoss (fun t y => y.1 ⬝ᵥ t) reg) [θ] (some ⟨data, bs, true⟩) none ⟨data, bs1, true⟩ ⟨te, bs2, true⟩).2 = .ok M ∧
        ∀ i (hi : i < data.length), ∃ θ', Trained reg data.length (data.eraseIdx i) θ' ∧
          0 ≤ leverage reg data data[i].1 ∧ leverage reg data data[i].1 < data.length ∧
          ∀ j (hj : j < te.length), te[j].1 ⬝ᵥ θ' - te[j].1 ⬝ᵥ θ = M.f i j / (data.length - leverage reg data data[i].1) ∧
            |M.f i j| / data.length ≤ |te[j].1 ⬝ᵥ θ' - te[j].1 ⬝ᵥ θ| ∧ 0 ≤ M.f i j * (te[j].1 ⬝ᵥ θ' - te[j].1 ⬝ᵥ θ) := by
  have hlen : 0 < data.length := List.length_pos_iff.2 hd
  have hn : (0 : ℝ) < data.length := by exact_mod_cast hlen
  set A := gram reg data with hA
  have hdet : IsUnit A.det := (gram_det hr data).isUnit
  have hstat : ∀ v : Fin p → ℝ, (data.length : ℝ)⁻¹ • gsum data v + reg • v = (data.length : ℝ)⁻¹ • gsum data 0 + A *ᵥ v := by
    intro v
    have := gsum_add data 0 v
    rw [zero_add] at this
    rw [this, hA, gram, add_mulVec, smul_mulVec, smul_mulVec, one_mulVec, smul_add, add_assoc]
  set θ := -(A⁻¹ *ᵥ ((data.length : ℝ)⁻¹ • gsum data 0)) with hθ
  have hs : (data.length : ℝ)⁻¹ • gsum data θ + reg • θ = 0 := by
    rw [hstat, hθ, mulVec_neg, mulVec_mulVec, mul_nonsing_inv _ hdet, one_mulVec, add_neg_cancel]
  have hnb : (⟨data, bs, true⟩ : Loader (Obs p)).nb = 1 := by
    show (data.length + bs - 1) / bs = 1
    exact Nat.div_eq_of_lt_le (by omega) (by omega)
  have hb0 : (⟨data, bs, true⟩ : Loader (Obs p)).batch 0 = data := by
    simp [Loader.batch, batchAt, List.take_of_length_le hbs]
  have hH : hessAt (fun t => sqLoss t data) θ + reg • (1 : Matrix (Fin p) (Fin p) ℝ) = A := by rw [sqLoss_hess]; rfl
  obtain ⟨M, e, f⟩ := C08_explicit_attribute (fun θ x => gradAt (fun t => sqLoss t [x]) θ) (fun θ (y : Obs p) => gradAt (fun t => y.1 ⬝ᵥ t) θ)
    (fun θ b => hessAt (fun t => sqLoss t b) θ) reg [θ] ⟨data, bs, true⟩ ⟨data, bs1, true⟩ ⟨te, bs2, true⟩ h1 h2 rfl rfl rfl (by
      intro c hc b hb
      obtain rfl : c = θ := by simpa using hc
      obtain rfl : b = 0 := by omega
      rw [hb0, hH]
      exact gram_det hr data)
  refine ⟨θ, trained_of_stationary hr _ _ _ hs, M, e, fun i hi => ?_⟩
  have hmem : data[i] ∈ data := List.getElem_mem hi
  obtain ⟨l0, l1⟩ := lev_bounds hr data data[i] hmem
  set x := data[i].1 with hx
  set h := leverage reg data x with hh
  set r := x ⬝ᵥ θ - data[i].2 with hrr
  have hpos : 0 < (data.length : ℝ) - h := by linarith
  have hAB : A *ᵥ (A⁻¹ *ᵥ x) = x := by rw [mulVec_mulVec, mul_nonsing_inv _ hdet, one_mulVec]
  have hxB : x ⬝ᵥ A⁻¹ *ᵥ x = h := rfl
  refine ⟨θ + (r / (data.length - h)) • A⁻¹ *ᵥ x, ?_, l0, l1, fun j hj => ?_⟩
  · apply trained_of_stationary hr
    have hperm : ∀ v, gsum data v = (x ⬝ᵥ v - data[i].2) • x + gsum (data.eraseIdx i) v := by
      intro v
      have := ((List.getElem_cons_eraseIdx_perm hi).map fun s : Obs p => (s.1 ⬝ᵥ v - s.2) • s.1).sum_eq
      rw [List.map_cons, List.sum_cons] at this
      exact this.symm
    have h3 : gsum (data.eraseIdx i) (θ + (r / (data.length - h)) • A⁻¹ *ᵥ x) = gsum data (θ + (r / (data.length - h)) • A⁻¹ *ᵥ x) -
        (x ⬝ᵥ (θ + (r / (data.length - h)) • A⁻¹ *ᵥ x) - data[i].2) • x := by rw [hperm]; abel
    have h4 := hstat (θ + (r / (data.length - h)) • A⁻¹ *ᵥ x)
    have h5 := hstat θ
    rw [hs] at h5
    rw [mulVec_add, mulVec_smul, hAB, ← add_assoc, ← h5, zero_add] at h4
    have h6 : x ⬝ᵥ (θ + (r / (data.length - h)) • A⁻¹ *ᵥ x) - data[i].2 = r + r / (data.length - h) * h := by
      rw [dotProduct_add, dotProduct_smul, hxB, smul_eq_mul, hrr]
      ring
    rw [h3, h6, smul_sub, sub_add_eq_add_sub, h4, smul_smul, ← sub_smul]
    have : r / (data.length - h) - (data.length : ℝ)⁻¹ * (r + r / (data.length - h) * h) = 0 := by
      field_simp
      ring
    rw [this, zero_smul]
  · have hM : M.f i j = r * (te[j].1 ⬝ᵥ A⁻¹ *ᵥ x) := by
      rw [f i hi j hj, hnb]
      simp only [List.map_cons, List.map_nil, List.sum_cons, List.sum_nil, add_zero, List.length_singleton, Nat.cast_one, div_one, Finset.sum_range_one]
      rw [hb0, hH, sqLoss_grad, gradAt_of (hasFDerivAt_dot te[j].1 θ)]
      have e1 : ((([data[i]] : List (Obs p)).length : ℝ))⁻¹ • gsum [data[i]] θ = r • x := by simp [gsum, hrr, hx]
      rw [e1, smul_dotProduct, smul_eq_mul]
      congr 1
      have e2 : (A⁻¹)ᵀ = A⁻¹ := by rw [transpose_nonsing_inv, gram_symm]
      rw [dotProduct_mulVec, ← mulVec_transpose, e2, dotProduct_comm]
    have hD : te[j].1 ⬝ᵥ (θ + (r / (data.length - h)) • A⁻¹ *ᵥ x) - te[j].1 ⬝ᵥ θ = M.f i j / (data.length - h) := by
      rw [dotProduct_add, dotProduct_smul, hM, smul_eq_mul]
      ring
    refine ⟨hD, ?_, ?_⟩
    · rw [hD, abs_div, abs_of_pos hpos]
      exact div_le_div_of_nonneg_left (abs_nonneg _) hpos (by linarith)
    · rw [hD, mul_div_assoc']
      exact div_nonneg (mul_self_nonneg _) hpos.le

/-- Fitting a mean to 1 and 3 with penalty 1: the leverage is `1/2` of 2 samples. -/
example : leverage (p := 1) 1 [(fun _ => 1, 1), (fun _ => 1, 3)] (fun _ => 1) = 1 / 2 := by
  have h : gram (p := 1) 1 [(fun _ => 1, 1), (fun _ => 1, 3)] = Matrix.of fun _ _ => 2 := by
    ext i j
    obtain rfl : i = 0 := Subsingleton.elim _ _
    obtain rfl : j = 0 := Subsingleton.elim _ _
    simp [gram, vecMulVec]
    norm_num
  unfold leverage
  rw [h]
  have : (Matrix.of fun _ _ => (2 : ℝ) : Matrix (Fin 1) (Fin 1) ℝ)⁻¹ = Matrix.of fun _ _ => (1 / 2 : ℝ) := by
    apply Matrix.inv_eq_right_inv
    ext i j
    obtain rfl : i = 0 := Subsingleton.elim _ _
    obtain rfl : j = 0 := Subsingleton.elim _ _
    simp [Matrix.mul_apply]
  rw [this]
  simp [mulVec, dotProduct]

end Verif.Attr
