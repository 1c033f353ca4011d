import Verif.TRAK.Props
import Mathlib.LinearAlgebra.Matrix.Trace
import Mathlib.LinearAlgebra.Matrix.DotProduct
import Mathlib.Tactic.Linarith
import Mathlib.Tactic.LinearCombination
import Mathlib.Algebra.BigOperators.Field

/-! # C179: what TRAK's scores are, without inverses -/

namespace Verif.TRAK

open Matrix

variable {X C : Type} {d : ℕ}

/-! ## Specification -/

/-- The training features span: no direction is orthogonal to all of them. -/
def Spans (φ : X → Fin d → ℝ) (data : List X) : Prop := ∀ v : Fin d → ℝ, (∀ x ∈ data, φ x ⬝ᵥ v = 0) → v = 0

/-- The combination of the training features with coefficients `w`. -/
def combine (φ : X → Fin d → ℝ) (data : List X) (w : Fin data.length → ℝ) : Fin d → ℝ := fun a => ∑ i, w i * φ data[i] a

/-- Squared error of representing `ψ` by the training features, plus a penalty on the coefficients. -/
def ridgeCost (lam : ℝ) (φ : X → Fin d → ℝ) (data : List X) (ψ : Fin d → ℝ) (w : Fin data.length → ℝ) : ℝ :=
  ∑ a, (ψ a - combine φ data w a) ^ 2 + lam * ∑ i, w i ^ 2

/-! ## Lemmas -/

/-- Coefficients `φ_iᵀ G⁻¹ ψ`. -/
noncomputable def coef (lam : ℝ) (φ : X → Fin d → ℝ) (data : List X) (ψ : Fin d → ℝ) (i : Fin data.length) : ℝ :=
  ψ ⬝ᵥ ((kernel lam (data.map φ))⁻¹ *ᵥ φ data[i])

lemma kernel_gram (lam : ℝ) (φ : X → Fin d → ℝ) (data : List X) :
    kernel lam (data.map φ) = (Matrix.of fun i : Fin data.length => φ data[i])ᵀ * (Matrix.of fun i : Fin data.length => φ data[i]) + lam • 1 :=
  kernel_eq_gram (⟨fun _ => φ, fun _ => φ, fun _ _ => 0, [], lam⟩ : Attributor ℝ X Unit d) () data

lemma kernel_mulVec (lam : ℝ) (φ : X → Fin d → ℝ) (data : List X) (u : Fin d → ℝ) :
    kernel lam (data.map φ) *ᵥ u = combine φ data (fun i => φ data[i] ⬝ᵥ u) + lam • u := by
  rw [kernel_gram, add_mulVec, smul_mulVec, one_mulVec, ← mulVec_mulVec]
  congr 1
  funext a
  simp only [mulVec, dotProduct, transpose_apply, of_apply, combine]
  exact Finset.sum_congr rfl fun i _ => mul_comm _ _

lemma combine_dot (φ : X → Fin d → ℝ) (data : List X) (w : Fin data.length → ℝ) (u : Fin d → ℝ) :
    ∑ a, u a * combine φ data w a = ∑ i, w i * (φ data[i] ⬝ᵥ u) := by
  simp only [combine, Finset.mul_sum, dotProduct]
  rw [Finset.sum_comm]
  exact Finset.sum_congr rfl fun i _ => Finset.sum_congr rfl fun a _ => by ring

lemma kernel_symm (lam : ℝ) (φ : X → Fin d → ℝ) (data : List X) : (kernel lam (data.map φ))ᵀ = kernel lam (data.map φ) := by
  ext a b
  simp only [transpose_apply, kernel]
  simp only [mul_comm, eq_comm]

lemma kernel_form (lam : ℝ) (φ : X → Fin d → ℝ) (data : List X) (u : Fin d → ℝ) :
    u ⬝ᵥ (kernel lam (data.map φ) *ᵥ u) = ∑ i : Fin data.length, (φ data[i] ⬝ᵥ u) ^ 2 + lam * ∑ a, u a ^ 2 := by
  rw [kernel_mulVec, dotProduct_add, dotProduct_smul, smul_eq_mul]
  congr 1
  · rw [dotProduct, combine_dot]
    exact Finset.sum_congr rfl fun i _ => (pow_two _).symm
  · simp [dotProduct, pow_two]

lemma kernel_det (lam : ℝ) (hl : 0 ≤ lam) (φ : X → Fin d → ℝ) (data : List X) :
    (kernel lam (data.map φ)).det ≠ 0 ↔ (0 < lam ∨ Spans φ data) := by
  constructor
  · intro h
    rcases hl.lt_or_eq with h1 | h1
    · exact .inl h1
    · refine .inr fun v hv => ?_
      by_contra hne
      refine h (Matrix.exists_mulVec_eq_zero_iff.1 ⟨v, hne, ?_⟩)
      rw [kernel_mulVec, ← h1, zero_smul, add_zero]
      funext a
      simp only [combine, Pi.zero_apply]
      exact Finset.sum_eq_zero fun i _ => by rw [hv data[i] (List.getElem_mem _), zero_mul]
  · intro h hd
    obtain ⟨v, hv, h0⟩ := Matrix.exists_mulVec_eq_zero_iff.2 hd
    have h1 := kernel_form lam φ data v
    rw [h0, dotProduct_zero] at h1
    have h2 : 0 ≤ ∑ i : Fin data.length, (φ data[i] ⬝ᵥ v) ^ 2 := Finset.sum_nonneg fun _ _ => sq_nonneg _
    have h3 : 0 ≤ ∑ a, v a ^ 2 := Finset.sum_nonneg fun _ _ => sq_nonneg _
    rcases h with h | h
    · have h4 : ∑ a, v a ^ 2 = 0 := by nlinarith
      rw [Finset.sum_eq_zero_iff_of_nonneg (fun _ _ => sq_nonneg _)] at h4
      exact hv (funext fun a => by simpa using h4 a (Finset.mem_univ a))
    · have h4 : ∑ i : Fin data.length, (φ data[i] ⬝ᵥ v) ^ 2 = 0 := by nlinarith
      rw [Finset.sum_eq_zero_iff_of_nonneg (fun _ _ => sq_nonneg _)] at h4
      refine hv (h v fun x hx => ?_)
      obtain ⟨i, hi, rfl⟩ := List.mem_iff_getElem.1 hx
      simpa using h4 ⟨i, hi⟩ (Finset.mem_univ _)

lemma coef_eq (lam : ℝ) (φ : X → Fin d → ℝ) (data : List X) (ψ : Fin d → ℝ) (i : Fin data.length) :
    coef lam φ data ψ i = φ data[i] ⬝ᵥ ((kernel lam (data.map φ))⁻¹ *ᵥ ψ) := by
  rw [coef, dotProduct_mulVec, ← mulVec_transpose, transpose_nonsing_inv, kernel_symm, dotProduct_comm]

/-- Residual of the representation: `λ G⁻¹ ψ`. -/
lemma combine_coef (lam : ℝ) (φ : X → Fin d → ℝ) (data : List X) (ψ : Fin d → ℝ) (h : (kernel lam (data.map φ)).det ≠ 0) :
    combine φ data (coef lam φ data ψ) + lam • ((kernel lam (data.map φ))⁻¹ *ᵥ ψ) = ψ := by
  have : coef lam φ data ψ = fun i => φ data[i] ⬝ᵥ ((kernel lam (data.map φ))⁻¹ *ᵥ ψ) := funext fun i => coef_eq lam φ data ψ i
  rw [this, ← kernel_mulVec, mulVec_mulVec, mul_nonsing_inv _ h.isUnit, one_mulVec]

lemma combine_add (φ : X → Fin d → ℝ) (data : List X) (v w : Fin data.length → ℝ) :
    combine φ data (v + w) = combine φ data v + combine φ data w := by
  funext a
  simp [combine, add_mul, Finset.sum_add_distrib]

lemma ridge_gap (lam : ℝ) (φ : X → Fin d → ℝ) (data : List X) (ψ : Fin d → ℝ) (h : (kernel lam (data.map φ)).det ≠ 0)
    (v : Fin data.length → ℝ) :
    ridgeCost lam φ data ψ (coef lam φ data ψ + v) =
      ridgeCost lam φ data ψ (coef lam φ data ψ) + ∑ a, combine φ data v a ^ 2 + lam * ∑ i, v i ^ 2 := by
  set w := coef lam φ data ψ with hw
  set u := (kernel lam (data.map φ))⁻¹ *ᵥ ψ with hu
  have hr : ∀ a, ψ a - combine φ data w a = lam * u a := by
    intro a
    have := congrFun (combine_coef lam φ data ψ h) a
    simp only [Pi.add_apply, Pi.smul_apply, smul_eq_mul] at this
    rw [← hw, ← hu] at this
    linarith
  have hdot : ∑ a, u a * combine φ data v a = ∑ i, v i * w i := by
    rw [combine_dot]
    exact Finset.sum_congr rfl fun i _ => by rw [hw, coef_eq]
  unfold ridgeCost
  have e1 : ∑ a, (ψ a - combine φ data (w + v) a) ^ 2 =
      ∑ a, (ψ a - combine φ data w a) ^ 2 - 2 * lam * ∑ a, u a * combine φ data v a + ∑ a, combine φ data v a ^ 2 := by
    rw [Finset.mul_sum, ← Finset.sum_sub_distrib, ← Finset.sum_add_distrib]
    refine Finset.sum_congr rfl fun a _ => ?_
    rw [combine_add, Pi.add_apply]
    have := hr a
    linear_combination (-2) * combine φ data v a * this
  have e2 : ∑ i, (w + v) i ^ 2 = ∑ i, w i ^ 2 + 2 * ∑ i, v i * w i + ∑ i, v i ^ 2 := by
    rw [Finset.mul_sum, ← Finset.sum_add_distrib, ← Finset.sum_add_distrib]
    exact Finset.sum_congr rfl fun i _ => by simp only [Pi.add_apply]; ring
  rw [e1, e2, hdot]; ring

/-- Leverages lie in `[0, 1]`. -/
lemma lever_range (lam : ℝ) (hl : 0 ≤ lam) (φ : X → Fin d → ℝ) (data : List X) (h : (kernel lam (data.map φ)).det ≠ 0)
    (i : Fin data.length) : 0 ≤ coef lam φ data (φ data[i]) i ∧ coef lam φ data (φ data[i]) i ≤ 1 := by
  set u := (kernel lam (data.map φ))⁻¹ *ᵥ φ data[i] with hu
  have h1 : coef lam φ data (φ data[i]) i = φ data[i] ⬝ᵥ u := rfl
  have h2 := kernel_form lam φ data u
  rw [show kernel lam (data.map φ) *ᵥ u = φ data[i] by rw [hu, mulVec_mulVec, mul_nonsing_inv _ h.isUnit, one_mulVec], dotProduct_comm] at h2
  have h3 : (φ data[i] ⬝ᵥ u) ^ 2 ≤ ∑ i : Fin data.length, (φ data[i] ⬝ᵥ u) ^ 2 :=
    Finset.single_le_sum (f := fun i : Fin data.length => (φ data[i] ⬝ᵥ u) ^ 2) (fun _ _ => sq_nonneg _) (Finset.mem_univ i)
  have h4 : 0 ≤ lam * ∑ a, u a ^ 2 := mul_nonneg hl (Finset.sum_nonneg fun _ _ => sq_nonneg _)
  rw [h1]
  set x := φ data[i] ⬝ᵥ u
  constructor
  · nlinarith [sq_nonneg x]
  · by_contra hc
    push Not at hc
    nlinarith

/-- Leverages add up to the number of dimensions, less what the regulariser takes. -/
lemma lever_sum (lam : ℝ) (φ : X → Fin d → ℝ) (data : List X) (h : (kernel lam (data.map φ)).det ≠ 0) :
    ∑ i : Fin data.length, coef lam φ data (φ data[i]) i = d - lam * ((kernel lam (data.map φ))⁻¹).trace := by
  set G := kernel lam (data.map φ) with hG
  set F : Matrix (Fin data.length) (Fin d) ℝ := Matrix.of fun i : Fin data.length => φ data[i] with hF
  have e1 : ∑ i : Fin data.length, coef lam φ data (φ data[i]) i = (F * (G⁻¹ * Fᵀ)).trace := by
    simp only [Matrix.trace, diag_apply, mul_apply, coef, dotProduct, mulVec]
    rfl
  have e2 : Fᵀ * F = G - lam • 1 := by rw [hG, kernel_gram, ← hF, add_sub_cancel_right]
  rw [e1, trace_mul_comm, Matrix.mul_assoc, e2, mul_sub, nonsing_inv_mul _ h.isUnit, trace_sub, trace_one, mul_smul_comm, trace_smul,
    mul_one, Fintype.card_fin, smul_eq_mul]

lemma trace_inv_nonneg (lam : ℝ) (hl : 0 ≤ lam) (φ : X → Fin d → ℝ) (data : List X) (h : (kernel lam (data.map φ)).det ≠ 0) :
    0 ≤ ((kernel lam (data.map φ))⁻¹).trace := by
  rw [Matrix.trace]
  refine Finset.sum_nonneg fun a _ => ?_
  have h2 := kernel_form lam φ data ((kernel lam (data.map φ))⁻¹ *ᵥ Pi.single a 1)
  rw [mulVec_mulVec, mul_nonsing_inv _ h.isUnit, one_mulVec, dotProduct_single_one, mulVec_single_one] at h2
  rw [diag_apply]
  simp only [col_apply] at h2
  rw [h2]
  exact add_nonneg (Finset.sum_nonneg fun _ _ => sq_nonneg _) (mul_nonneg hl (Finset.sum_nonneg fun _ _ => sq_nonneg _))

/-- The scores in terms of `coef`. -/
lemma trak_ok (A : Attributor ℝ X C d) (st : State ℝ X d) (hst : st.full = none) (tr te : Loader X)
    (b1 : 0 < tr.bs) (b2 : 0 < te.bs) (s1 : tr.supported = true) (s2 : te.supported = true)
    (n1 : tr.data ≠ []) (n2 : te.data ≠ []) (hc : A.ckpts ≠ [])
    (hdet : ∀ c ∈ A.ckpts, (kernel A.reg (tr.data.map (A.phiLoss c))).det ≠ 0) :
    ∃ M, attribute' A st te (some tr) = .ok M ∧ M.r = tr.data.length ∧ M.c = te.data.length ∧
      ∀ i (hi : i < tr.data.length) j (hj : j < te.data.length),
        M.f i j = (A.ckpts.map (fun c => coef A.reg (A.phiLoss c) tr.data (A.phiTarget c te.data[j]) ⟨i, hi⟩)).sum / (A.ckpts.length : ℝ)
          * ((A.ckpts.map (fun c => 1 - A.prob c tr.data[i])).sum / (A.ckpts.length : ℝ)) := by
  simp only [kernel_eq_gram] at hdet
  obtain ⟨M, h1, h2, h3, h4⟩ := C13_trak_entry A st hst tr te b1 b2 s1 s2 n1 n2 hc hdet
  refine ⟨M, h1, h2, h3, fun i hi j hj => ?_⟩
  rw [h4 i hi j hj]
  simp only [← kernel_eq_gram]
  rfl

lemma fold_fails (A : Attributor ℝ X C d) (st : State ℝ X d) (tr te : Loader X) (b1 : 0 < tr.bs) (b2 : 0 < te.bs)
    (s1 : tr.supported = true) (s2 : te.supported = true) (n1 : tr.data ≠ []) (n2 : te.data ≠ []) :
    ∀ (cs : List (C × ℕ)) s, (∃ ci ∈ cs, (kernel A.reg (tr.data.map (A.phiLoss ci.1))).det = 0) →
      cs.foldlM (attrStep A st (some tr) te) s = .error .runtimeError
  | [], _, h => by simp at h
  | ci :: cs, s, h => by
    rw [List.foldlM_cons]
    by_cases h0 : (kernel A.reg (tr.data.map (A.phiLoss ci.1))).det = 0
    · simp [attrStep, trainPart, bind, Except.bind, catRows_ok tr _ b1 s1 n1, catRows_ok te _ b2 s2 n2, solveT, h0, pure, Except.pure]
    · simp only [attrStep, trainPart, bind, Except.bind, catRows_ok tr _ b1 s1 n1, catRows_ok te _ b2 s2 n2, solveT, if_neg h0, pure, Except.pure]
      refine fold_fails A st tr te b1 b2 s1 s2 n1 n2 cs _ ?_
      obtain ⟨c, hc, hd⟩ := h
      rcases List.mem_cons.1 hc with rfl | hc
      · exact absurd hd h0
      · exact ⟨c, hc, hd⟩

/-- A loop stops with the exception of the first pass that raises, if no other exception can occur. -/
lemma fold_stops {α β : Type} (f : β → α → Except Err β) (bad : α → Prop) : ∀ (l : List α) (b : β), (∀ b a, bad a → f b a = .error .runtimeError) →
    (∀ b a, ¬ bad a → ∃ b', f b a = .ok b') → (∃ a ∈ l, bad a) → l.foldlM f b = .error .runtimeError
  | [], _, _, _, h => by simp at h
  | a :: l, b, h1, h2, h => by
    rw [List.foldlM_cons]
    by_cases h0 : bad a
    · rw [h1 b a h0]; rfl
    · obtain ⟨b', e⟩ := h2 b a h0
      rw [e]
      refine fold_stops f bad l b' h1 h2 ?_
      obtain ⟨c, hc, hd⟩ := h
      rcases List.mem_cons.1 hc with rfl | hc
      · exact absurd hd h0
      · exact ⟨c, hc, hd⟩

/-! ## C179 -/

/-- **C179.** With a non-negative regulariser, `attribute` returns scores exactly when the regulariser is positive or the projected training gradients of every
checkpoint span the projection space; otherwise it raises `RuntimeError`. -/
theorem C179_exists (A : Attributor ℝ X C d) (hreg : 0 ≤ A.reg) (st : State ℝ X d) (hst : st.full = none) (tr te : Loader X)
    (b1 : 0 < tr.bs) (b2 : 0 < te.bs) (s1 : tr.supported = true) (s2 : te.supported = true)
    (n1 : tr.data ≠ []) (n2 : te.data ≠ []) (hc : A.ckpts ≠ []) :
    ((∃ M, attribute' A st te (some tr) = .ok M) ↔ (0 < A.reg ∨ ∀ c ∈ A.ckpts, Spans (A.phiLoss c) tr.data)) ∧
    (¬ (0 < A.reg ∨ ∀ c ∈ A.ckpts, Spans (A.phiLoss c) tr.data) → attribute' A st te (some tr) = .error .runtimeError) := by
  have hfail : ¬ (0 < A.reg ∨ ∀ c ∈ A.ckpts, Spans (A.phiLoss c) tr.data) → attribute' A st te (some tr) = .error .runtimeError := by
    intro h
    push Not at h
    obtain ⟨h1, c, hcm, hs⟩ := h
    have hd : (kernel A.reg (tr.data.map (A.phiLoss c))).det = 0 := by
      by_contra hne
      rcases (kernel_det A.reg hreg (A.phiLoss c) tr.data).1 hne with h | h
      · linarith
      · exact hs h
    obtain ⟨k, hk, rfl⟩ := List.mem_iff_getElem.1 hcm
    simp only [attribute', hst, Option.isSome_some, Option.isSome_none, Option.isNone_some,
      Bool.and_false, Bool.false_and, Bool.false_eq_true, if_false, if_true]
    rw [fold_fails A st tr te b1 b2 s1 s2 n1 n2 A.ckpts.zipIdx _ ⟨(A.ckpts[k], k), List.mem_zipIdx_iff_getElem?.2 (by simp [hk]), hd⟩]
    rfl
  refine ⟨⟨fun ⟨M, h⟩ => ?_, fun h => ?_⟩, hfail⟩
  · by_contra hn
    rw [hfail hn] at h; cases h
  · obtain ⟨M, h1, -⟩ := trak_ok A st hst tr te b1 b2 s1 s2 n1 n2 hc fun c hcm => (kernel_det A.reg hreg (A.phiLoss c) tr.data).2
      (h.imp id fun h => h c hcm)
    exact ⟨M, h1⟩

/-- **C179.** `cache` and `self_attribute` succeed under the same condition, and raise `RuntimeError` otherwise. -/
theorem C179_exists_others (A : Attributor ℝ X C d) (hreg : 0 ≤ A.reg) (st : State ℝ X d) (tr : Loader X)
    (b1 : 0 < tr.bs) (s1 : tr.supported = true) (n1 : tr.data ≠ []) :
    ((∃ s, cache A st tr = .ok s) ↔ (0 < A.reg ∨ ∀ c ∈ A.ckpts, Spans (A.phiLoss c) tr.data)) ∧
    (¬ (0 < A.reg ∨ ∀ c ∈ A.ckpts, Spans (A.phiLoss c) tr.data) → cache A st tr = .error .runtimeError) ∧
    (st.full = none → A.ckpts ≠ [] →
      ((∃ M, selfAttribute A st (some tr) = .ok M) ↔ (0 < A.reg ∨ ∀ c ∈ A.ckpts, Spans (A.phiLoss c) tr.data)) ∧
      (¬ (0 < A.reg ∨ ∀ c ∈ A.ckpts, Spans (A.phiLoss c) tr.data) → selfAttribute A st (some tr) = .error .runtimeError)) := by
  have hbad : ¬ (0 < A.reg ∨ ∀ c ∈ A.ckpts, Spans (A.phiLoss c) tr.data) →
      ∃ ci ∈ A.ckpts.zipIdx, (kernel A.reg (tr.data.map (A.phiLoss ci.1))).det = 0 := by
    intro h
    push Not at h
    obtain ⟨h1, c, hcm, hs⟩ := h
    obtain ⟨k, hk, rfl⟩ := List.mem_iff_getElem.1 hcm
    refine ⟨(A.ckpts[k], k), List.mem_zipIdx_iff_getElem?.2 (by simp [hk]), ?_⟩
    by_contra hne
    rcases (kernel_det A.reg hreg (A.phiLoss A.ckpts[k]) tr.data).1 hne with h | h
    · linarith
    · exact hs h
  have hgood : (0 < A.reg ∨ ∀ c ∈ A.ckpts, Spans (A.phiLoss c) tr.data) → ∀ c ∈ A.ckpts, (kernel A.reg (tr.data.map (A.phiLoss c))).det ≠ 0 := fun h c hcm =>
    (kernel_det A.reg hreg (A.phiLoss c) tr.data).2 (h.imp id fun h => h c hcm)
  have hcache : ¬ (0 < A.reg ∨ ∀ c ∈ A.ckpts, Spans (A.phiLoss c) tr.data) → cache A st tr = .error .runtimeError := by
    intro h
    unfold cache
    rw [fold_stops _ (fun ci : C × ℕ => (kernel A.reg (tr.data.map (A.phiLoss ci.1))).det = 0) A.ckpts.zipIdx _ ?_ ?_ (hbad h)]
    · rfl
    · intro s ci h0
      simp [trainPart, bind, Except.bind, catRows_ok tr _ b1 s1 n1, solveT, h0, pure, Except.pure]
    · intro s ci h0
      simp only [trainPart, bind, Except.bind, catRows_ok tr _ b1 s1 n1, solveT, if_neg h0, pure, Except.pure]
      exact ⟨_, rfl⟩
  refine ⟨⟨fun ⟨M, h⟩ => ?_, fun h => ?_⟩, hcache, fun hst hc => ?_⟩
  · by_contra hn
    rw [hcache hn] at h; cases h
  · obtain ⟨s, hs, -⟩ := C12_cache_succeeds A st tr b1 s1 n1 (hgood h)
    exact ⟨s, hs⟩
  · have hself : ¬ (0 < A.reg ∨ ∀ c ∈ A.ckpts, Spans (A.phiLoss c) tr.data) → selfAttribute A st (some tr) = .error .runtimeError := by
      intro h
      simp only [selfAttribute, hst, Option.isSome_none, Bool.false_eq_true, if_false]
      rw [fold_stops _ (fun ci : C × ℕ => (kernel A.reg (tr.data.map (A.phiLoss ci.1))).det = 0) A.ckpts.zipIdx _ ?_ ?_ (hbad h)]
      · rfl
      · intro s ci h0
        simp [selfStep, trainPart, bind, Except.bind, catRows_ok tr _ b1 s1 n1, solveT, h0, pure, Except.pure]
      · intro s ci h0
        simp only [selfStep, trainPart, bind, Except.bind, catRows_ok tr _ b1 s1 n1, solveT, if_neg h0, pure, Except.pure]
        exact ⟨_, rfl⟩
    refine ⟨⟨fun ⟨M, h⟩ => ?_, fun h => ?_⟩, hself⟩
    · by_contra hn
      rw [hself hn] at h; cases h
    · have hdet := hgood h
      simp only [kernel_eq_gram] at hdet
      obtain ⟨M, hM, -⟩ := C14_self_column A st hst tr b1 s1 n1 hc hdet
      exact ⟨M, hM⟩

/-- **C179.** With one checkpoint and a positive regulariser `λ`: the scores of a test sample are, up to the factor `1 - p_i`, the unique coefficients `w` that
minimise the squared error of representing the test sample's gradient by the training gradients plus `λ` times the squared size of `w`. -/
theorem C179_ridge (A : Attributor ℝ X C d) (c : C) (hA : A.ckpts = [c]) (hreg : 0 < A.reg) (st : State ℝ X d) (hst : st.full = none) (tr te : Loader X)
    (b1 : 0 < tr.bs) (b2 : 0 < te.bs) (s1 : tr.supported = true) (s2 : te.supported = true) (n1 : tr.data ≠ []) (n2 : te.data ≠ []) :
    ∃ M, attribute' A st te (some tr) = .ok M ∧ ∀ j (hj : j < te.data.length), ∃ w : Fin tr.data.length → ℝ,
      (∀ i : Fin tr.data.length, M.f i j = w i * (1 - A.prob c tr.data[i])) ∧
      ∀ v, v ≠ w → ridgeCost A.reg (A.phiLoss c) tr.data (A.phiTarget c te.data[j]) w < ridgeCost A.reg (A.phiLoss c) tr.data (A.phiTarget c te.data[j]) v := by
  have hd := (kernel_det A.reg hreg.le (A.phiLoss c) tr.data).2 (.inl hreg)
  obtain ⟨M, h1, -, -, h4⟩ := trak_ok A st hst tr te b1 b2 s1 s2 n1 n2 (by simp [hA]) (by rw [hA]; simpa using hd)
  refine ⟨M, h1, fun j hj => ⟨coef A.reg (A.phiLoss c) tr.data (A.phiTarget c te.data[j]), fun i => ?_, fun v hv => ?_⟩⟩
  · rw [h4 i i.2 j hj, hA]; simp
  · set w := coef A.reg (A.phiLoss c) tr.data (A.phiTarget c te.data[j]) with hw
    have hg := ridge_gap A.reg (A.phiLoss c) tr.data (A.phiTarget c te.data[j]) hd (v - w)
    rw [← hw, add_sub_cancel] at hg
    rw [hg]
    have h2 : 0 ≤ ∑ a, combine (A.phiLoss c) tr.data (v - w) a ^ 2 := Finset.sum_nonneg fun _ _ => sq_nonneg _
    have h3 : 0 < ∑ i, (v - w) i ^ 2 := by
      obtain ⟨i, hi⟩ := Function.ne_iff.1 hv
      exact Finset.sum_pos' (fun _ _ => sq_nonneg _) ⟨i, Finset.mem_univ i, by
        have : v i - w i ≠ 0 := sub_ne_zero.2 hi
        simp only [Pi.sub_apply]; positivity⟩
    have := mul_pos hreg h3
    linarith

/-- **C179.** With one checkpoint, no regulariser and spanning training gradients: the coefficients represent the test sample's gradient exactly, and are the
smallest that do. -/
theorem C179_exact (A : Attributor ℝ X C d) (c : C) (hA : A.ckpts = [c]) (hreg : A.reg = 0) (st : State ℝ X d) (hst : st.full = none) (tr te : Loader X)
    (b1 : 0 < tr.bs) (b2 : 0 < te.bs) (s1 : tr.supported = true) (s2 : te.supported = true) (n1 : tr.data ≠ []) (n2 : te.data ≠ [])
    (hs : Spans (A.phiLoss c) tr.data) :
    ∃ M, attribute' A st te (some tr) = .ok M ∧ ∀ j (hj : j < te.data.length), ∃ w : Fin tr.data.length → ℝ,
      (∀ i : Fin tr.data.length, M.f i j = w i * (1 - A.prob c tr.data[i])) ∧
      combine (A.phiLoss c) tr.data w = A.phiTarget c te.data[j] ∧
      ∀ v, v ≠ w → combine (A.phiLoss c) tr.data v = A.phiTarget c te.data[j] → ∑ i, w i ^ 2 < ∑ i, v i ^ 2 := by
  have hd := (kernel_det A.reg hreg.ge (A.phiLoss c) tr.data).2 (.inr hs)
  obtain ⟨M, h1, -, -, h4⟩ := trak_ok A st hst tr te b1 b2 s1 s2 n1 n2 (by simp [hA]) (by rw [hA]; simpa using hd)
  refine ⟨M, h1, fun j hj => ?_⟩
  set ψ := A.phiTarget c te.data[j] with hψ
  set w := coef A.reg (A.phiLoss c) tr.data ψ with hw
  have hcw : combine (A.phiLoss c) tr.data w = ψ := by
    have := combine_coef A.reg (A.phiLoss c) tr.data ψ hd
    rwa [hreg, zero_smul, add_zero, ← hreg] at this
  refine ⟨w, fun i => ?_, hcw, fun v hv hcv => ?_⟩
  · rw [h4 i i.2 j hj, hA]; simp [hw, hψ]
  · have hz : combine (A.phiLoss c) tr.data (v - w) = 0 := by
      have := combine_add (A.phiLoss c) tr.data (v - w) w
      rw [sub_add_cancel, hcv, hcw] at this
      simpa using this
    have horth : ∑ i, (v - w) i * w i = 0 := by
      have := combine_dot (A.phiLoss c) tr.data (v - w) ((kernel A.reg (tr.data.map (A.phiLoss c)))⁻¹ *ᵥ ψ)
      rw [hz] at this
      simp only [Pi.zero_apply, mul_zero, Finset.sum_const_zero] at this
      rw [this]
      exact Finset.sum_congr rfl fun i _ => by rw [hw, coef_eq]
    have h3 : 0 < ∑ i, (v - w) i ^ 2 := by
      obtain ⟨i, hi⟩ := Function.ne_iff.1 hv
      exact Finset.sum_pos' (fun _ _ => sq_nonneg _) ⟨i, Finset.mem_univ i, by
        have : v i - w i ≠ 0 := sub_ne_zero.2 hi
        simp only [Pi.sub_apply]; positivity⟩
    have h5 : ∑ i, v i ^ 2 = ∑ i, w i ^ 2 + 2 * ∑ i, (v - w) i * w i + ∑ i, (v - w) i ^ 2 := by
      rw [Finset.mul_sum, ← Finset.sum_add_distrib, ← Finset.sum_add_distrib]
      exact Finset.sum_congr rfl fun i _ => by simp only [Pi.sub_apply]; ring
    rw [h5, horth]; linarith

/-- **C179.** Self scores: with correct probabilities in `[0, 1]` each lies in `[0, 1]`, and together they are at most the projection dimension. -/
theorem C179_self (A : Attributor ℝ X C d) (hreg : 0 ≤ A.reg) (hp : ∀ c x, 0 ≤ A.prob c x ∧ A.prob c x ≤ 1) (st : State ℝ X d) (hst : st.full = none)
    (tr : Loader X) (b1 : 0 < tr.bs) (s1 : tr.supported = true) (n1 : tr.data ≠ []) (hc : A.ckpts ≠ [])
    (hs : 0 < A.reg ∨ ∀ c ∈ A.ckpts, Spans (A.phiLoss c) tr.data) :
    ∃ M, selfAttribute A st (some tr) = .ok M ∧ (∀ i, i < tr.data.length → 0 ≤ M.f i 0 ∧ M.f i 0 ≤ 1) ∧
      ∑ i : Fin tr.data.length, M.f i 0 ≤ d ∧
      ((∀ c x, A.prob c x = 0) → A.reg = 0 → ∑ i : Fin tr.data.length, M.f i 0 = d) := by
  have hdet : ∀ c ∈ A.ckpts, (kernel A.reg (tr.data.map (A.phiLoss c))).det ≠ 0 := fun c hcm =>
    (kernel_det A.reg hreg (A.phiLoss c) tr.data).2 (hs.imp id fun h => h c hcm)
  have hdet' := hdet
  simp only [kernel_eq_gram] at hdet'
  obtain ⟨M, h1, -, -, h4⟩ := C14_self_column A st hst tr b1 s1 n1 hc hdet'
  simp only [← kernel_eq_gram] at h4
  have hL : (0 : ℝ) < A.ckpts.length := by exact_mod_cast List.length_pos_iff.2 hc
  set lev : Fin tr.data.length → ℝ := fun i =>
    (A.ckpts.map fun c => coef A.reg (A.phiLoss c) tr.data (A.phiLoss c tr.data[i]) i).sum / (A.ckpts.length : ℝ) with hlev
  set q : Fin tr.data.length → ℝ := fun i => (A.ckpts.map fun c => 1 - A.prob c tr.data[i]).sum / (A.ckpts.length : ℝ) with hq
  have hM : ∀ i : Fin tr.data.length, M.f i 0 = lev i * q i := fun i => h4 i i.2
  have bound : ∀ f : C → ℝ, (∀ c ∈ A.ckpts, 0 ≤ f c ∧ f c ≤ 1) → 0 ≤ (A.ckpts.map f).sum / (A.ckpts.length : ℝ) ∧ (A.ckpts.map f).sum / (A.ckpts.length : ℝ) ≤ 1 := by
    intro f hf
    refine ⟨div_nonneg (List.sum_nonneg fun x hx => ?_) hL.le, (div_le_one hL).2 ?_⟩
    · obtain ⟨c, hcm, rfl⟩ := List.mem_map.1 hx
      exact (hf c hcm).1
    · have := List.sum_le_card_nsmul (A.ckpts.map f) 1 fun x hx => by
        obtain ⟨c, hcm, rfl⟩ := List.mem_map.1 hx
        exact (hf c hcm).2
      simpa using this
  have hl01 : ∀ i, 0 ≤ lev i ∧ lev i ≤ 1 := fun i => bound _ fun c hcm => lever_range A.reg hreg (A.phiLoss c) tr.data (hdet c hcm) i
  have hq01 : ∀ i, 0 ≤ q i ∧ q i ≤ 1 := fun i => bound _ fun c _ => by have := hp c tr.data[i]; constructor <;> linarith
  have hsum : ∑ i, lev i = (A.ckpts.map fun c => (d : ℝ) - A.reg * ((kernel A.reg (tr.data.map (A.phiLoss c)))⁻¹).trace).sum / (A.ckpts.length : ℝ) := by
    rw [hlev, ← Finset.sum_div]
    congr 1
    have : ∀ (cs : List C) (f : C → Fin tr.data.length → ℝ), ∑ i, (cs.map fun c => f c i).sum = (cs.map fun c => ∑ i, f c i).sum := by
      intro cs f
      induction cs with
      | nil => simp
      | cons c cs ih => simp only [List.map_cons, List.sum_cons, Finset.sum_add_distrib, ih]
    rw [this A.ckpts fun c i => coef A.reg (A.phiLoss c) tr.data (A.phiLoss c tr.data[i]) i]
    exact congrArg _ (List.map_congr_left fun c hcm => lever_sum A.reg (A.phiLoss c) tr.data (hdet c hcm))
  refine ⟨M, h1, fun i hi => ?_, ?_, fun hz hr => ?_⟩
  · rw [hM ⟨i, hi⟩]
    exact ⟨mul_nonneg (hl01 _).1 (hq01 _).1, mul_le_one₀ (hl01 _).2 (hq01 _).1 (hq01 _).2⟩
  · calc ∑ i : Fin tr.data.length, M.f i 0 ≤ ∑ i, lev i := Finset.sum_le_sum fun i _ => by
          rw [hM i]; exact mul_le_of_le_one_right (hl01 i).1 (hq01 i).2
      _ ≤ d := by
          rw [hsum, div_le_iff₀ hL]
          have := List.sum_le_card_nsmul (A.ckpts.map fun c => (d : ℝ) - A.reg * ((kernel A.reg (tr.data.map (A.phiLoss c)))⁻¹).trace) d fun x hx => by
            obtain ⟨c, hcm, rfl⟩ := List.mem_map.1 hx
            have := mul_nonneg hreg (trace_inv_nonneg A.reg hreg (A.phiLoss c) tr.data (hdet c hcm))
            linarith
          simpa [mul_comm] using this
  · have hq1 : ∀ i, q i = 1 := fun i => by
      simp only [hq, hz, sub_zero, List.map_const', List.sum_replicate, nsmul_eq_mul, mul_one]
      exact div_self hL.ne'
    calc ∑ i : Fin tr.data.length, M.f i 0 = ∑ i, lev i := Finset.sum_congr rfl fun i _ => by rw [hM i, hq1 i, mul_one]
      _ = d := by
        rw [hsum]
        simp only [hr, zero_mul, sub_zero, List.map_const', List.sum_replicate, nsmul_eq_mul]
        field_simp

/-! ## Changing the scale of the features, and repeating the training set -/

lemma kernel_scale (lam s : ℝ) (φ : X → Fin d → ℝ) (data : List X) :
    kernel (s ^ 2 * lam) (data.map fun x => s • φ x) = s ^ 2 • kernel lam (data.map φ) := by
  ext a b
  simp only [kernel, Matrix.smul_apply, List.map_map, Function.comp_def, Pi.smul_apply, smul_eq_mul]
  rw [mul_add, ← List.sum_map_mul_left]
  congr 1
  · exact congrArg _ (List.map_congr_left fun x _ => by ring)
  · split_ifs <;> simp

lemma coef_scale (lam s : ℝ) (hs : s ≠ 0) (φ : X → Fin d → ℝ) (data : List X) (ψ : Fin d → ℝ) (h : (kernel lam (data.map φ)).det ≠ 0)
    (i : Fin data.length) : coef (s ^ 2 * lam) (fun x => s • φ x) data (s • ψ) i = coef lam φ data ψ i := by
  have hinv : (s ^ 2 • kernel lam (data.map φ))⁻¹ = (s ^ 2)⁻¹ • (kernel lam (data.map φ))⁻¹ := by
    refine Matrix.inv_eq_right_inv ?_
    rw [smul_mul_smul_comm, mul_nonsing_inv _ h.isUnit, mul_inv_cancel₀ (pow_ne_zero 2 hs), one_smul]
  unfold coef
  rw [kernel_scale, hinv, smul_mulVec, mulVec_smul, smul_dotProduct, dotProduct_smul, dotProduct_smul]
  simp only [smul_eq_mul]
  field_simp

/-- The attributor whose features are those of `A` times `s`, with another regulariser: another value of the scale that `TRAKAttributor` takes from the number
of trainable parameters. -/
def rescaled (A : Attributor ℝ X C d) (s lam : ℝ) : Attributor ℝ X C d :=
  { A with phiLoss := fun c x => s • A.phiLoss c x, phiTarget := fun c x => s • A.phiTarget c x, reg := lam }

/-- **C179.** Features multiplied by `s` with regulariser `s²λ` give the same scores as the features with `λ`.  As the code divides all gradients by the square root of
the number of trainable parameters, the regulariser it applies to the gradients themselves is the number of parameters times the one requested; without a
regulariser the division has no effect. -/
theorem C179_scale (A : Attributor ℝ X C d) (hreg : 0 ≤ A.reg) (s : ℝ) (hs : s ≠ 0) (st : State ℝ X d) (hst : st.full = none) (tr te : Loader X)
    (b1 : 0 < tr.bs) (b2 : 0 < te.bs) (s1 : tr.supported = true) (s2 : te.supported = true) (n1 : tr.data ≠ []) (n2 : te.data ≠ []) (hc : A.ckpts ≠ [])
    (hsp : 0 < A.reg ∨ ∀ c ∈ A.ckpts, Spans (A.phiLoss c) tr.data) :
    ∃ M M', attribute' A st te (some tr) = .ok M ∧ attribute' (rescaled A s (s ^ 2 * A.reg)) st te (some tr) = .ok M' ∧
      ∀ i < tr.data.length, ∀ j < te.data.length, M'.f i j = M.f i j := by
  have hdet : ∀ c ∈ A.ckpts, (kernel A.reg (tr.data.map (A.phiLoss c))).det ≠ 0 := fun c hcm =>
    (kernel_det A.reg hreg (A.phiLoss c) tr.data).2 (hsp.imp id fun h => h c hcm)
  obtain ⟨M, h1, -, -, h4⟩ := trak_ok A st hst tr te b1 b2 s1 s2 n1 n2 hc hdet
  obtain ⟨M', h1', -, -, h4'⟩ := trak_ok (rescaled A s (s ^ 2 * A.reg)) st hst tr te b1 b2 s1 s2 n1 n2 hc fun c hcm => by
    show (kernel (s ^ 2 * A.reg) (tr.data.map fun x => s • A.phiLoss c x)).det ≠ 0
    rw [kernel_scale, det_smul]
    exact mul_ne_zero (pow_ne_zero _ (pow_ne_zero 2 hs)) (hdet c hcm)
  refine ⟨M, M', h1, h1', fun i hi j hj => ?_⟩
  rw [h4 i hi j hj, h4' i hi j hj]
  congr 2
  refine congrArg _ (List.map_congr_left fun c hcm => ?_)
  exact coef_scale A.reg s hs (A.phiLoss c) tr.data (A.phiTarget c te.data[j]) (hdet c hcm) ⟨i, hi⟩

lemma kernel_repeat (lam : ℝ) (k : ℕ) (φ : X → Fin d → ℝ) (data : List X) :
    kernel (k * lam) ((List.replicate k data).flatten.map φ) = (k : ℝ) • kernel lam (data.map φ) := by
  ext a b
  simp only [kernel, Matrix.smul_apply, smul_eq_mul, mul_add]
  congr 1
  · induction k with
    | zero => simp
    | succ k ih =>
      rw [List.replicate_succ, List.flatten_cons, List.map_append, List.map_append, List.sum_append, ih]
      push_cast; ring
  · split_ifs <;> simp

lemma getElem_repeat (k : ℕ) (data : List X) : ∀ i (hi : i < (List.replicate k data).flatten.length) (h0 : i % data.length < data.length),
    (List.replicate k data).flatten[i] = data[i % data.length] := by
  induction k with
  | zero => intro i hi; simp at hi
  | succ k ih =>
    intro i hi h0
    simp only [List.replicate_succ, List.flatten_cons] at hi ⊢
    rw [List.getElem_append]
    split
    · rename_i h
      simp only [Nat.mod_eq_of_lt h]
    · rename_i h
      rw [ih (i - data.length) (by simp at hi ⊢; omega) (Nat.mod_lt _ (by omega))]
      congr 1
      rw [Nat.mod_eq_sub_mod (a := i) (by omega)]

/-- **C179.** Giving the whole training set `k` times over divides every score by `k`, if the regulariser is `k` times as large (or zero): a score says how much
one of the given samples contributes, and depends on all the others. -/
theorem C179_repeat (A : Attributor ℝ X C d) (hreg : 0 ≤ A.reg) (k : ℕ) (hk : 0 < k) (st : State ℝ X d) (hst : st.full = none) (tr tr' te : Loader X)
    (htr : tr'.data = (List.replicate k tr.data).flatten) (b1 : 0 < tr.bs) (b1' : 0 < tr'.bs) (b2 : 0 < te.bs) (s1 : tr.supported = true)
    (s1' : tr'.supported = true) (s2 : te.supported = true) (n1 : tr.data ≠ []) (n2 : te.data ≠ []) (hc : A.ckpts ≠ [])
    (hsp : 0 < A.reg ∨ ∀ c ∈ A.ckpts, Spans (A.phiLoss c) tr.data) :
    ∃ M M', attribute' A st te (some tr) = .ok M ∧ attribute' { A with reg := k * A.reg } st te (some tr') = .ok M' ∧ M'.r = k * M.r ∧
      ∀ i < k * tr.data.length, ∀ j < te.data.length, M'.f i j = M.f (i % tr.data.length) j / k := by
  have hk0 : (k : ℝ) ≠ 0 := by exact_mod_cast hk.ne'
  have hpos : 0 < tr.data.length := List.length_pos_iff.2 n1
  have hlen : tr'.data.length = k * tr.data.length := by rw [htr]; simp
  have hdet : ∀ c ∈ A.ckpts, (kernel A.reg (tr.data.map (A.phiLoss c))).det ≠ 0 := fun c hcm =>
    (kernel_det A.reg hreg (A.phiLoss c) tr.data).2 (hsp.imp id fun h => h c hcm)
  have hkr : ∀ c, kernel (k * A.reg) (tr'.data.map (A.phiLoss c)) = (k : ℝ) • kernel A.reg (tr.data.map (A.phiLoss c)) := fun c => by
    rw [htr]; exact kernel_repeat A.reg k (A.phiLoss c) tr.data
  obtain ⟨M, h1, hr, -, h4⟩ := trak_ok A st hst tr te b1 b2 s1 s2 n1 n2 hc hdet
  obtain ⟨M', h1', hr', -, h4'⟩ := trak_ok { A with reg := k * A.reg } st hst tr' te b1' b2 s1' s2
    (List.ne_nil_of_length_pos (by rw [hlen]; exact Nat.mul_pos hk hpos)) n2 hc fun c hcm => by
      show (kernel (k * A.reg) (tr'.data.map (A.phiLoss c))).det ≠ 0
      rw [hkr, det_smul]
      exact mul_ne_zero (pow_ne_zero _ hk0) (hdet c hcm)
  refine ⟨M, M', h1, h1', by rw [hr, hr', hlen], fun i hi j hj => ?_⟩
  have hi' : i < tr'.data.length := by rw [hlen]; exact hi
  have hm : i % tr.data.length < tr.data.length := Nat.mod_lt _ hpos
  have hget : tr'.data[i] = tr.data[i % tr.data.length] := by
    have := getElem_repeat k tr.data i (by rw [← htr]; exact hi') hm
    simpa only [htr] using this
  rw [h4 _ hm j hj, h4' i hi' j hj]
  have hco : ∀ c ∈ A.ckpts, coef (k * A.reg) (A.phiLoss c) tr'.data (A.phiTarget c te.data[j]) ⟨i, hi'⟩ =
      coef A.reg (A.phiLoss c) tr.data (A.phiTarget c te.data[j]) ⟨i % tr.data.length, hm⟩ * (k : ℝ)⁻¹ := by
    intro c hcm
    have hinv : ((k : ℝ) • kernel A.reg (tr.data.map (A.phiLoss c)))⁻¹ = (k : ℝ)⁻¹ • (kernel A.reg (tr.data.map (A.phiLoss c)))⁻¹ := by
      refine Matrix.inv_eq_right_inv ?_
      rw [smul_mul_smul_comm, mul_nonsing_inv _ (hdet c hcm).isUnit, mul_inv_cancel₀ hk0, one_smul]
    simp only [coef, Fin.getElem_fin]
    rw [hkr, hinv, hget, smul_mulVec, dotProduct_smul, smul_eq_mul, mul_comm]
  simp only [hget]
  rw [List.map_congr_left hco, List.sum_map_mul_right]
  ring

/-! ## Non-vacuity -/

/-- Two samples in one dimension, no regulariser, one checkpoint. -/
noncomputable def demoR : Attributor ℝ ℝ Unit 1 := ⟨fun _ x _ => x, fun _ x _ => x, fun _ _ => 1 / 2, [()], 0⟩

lemma demoR_spans : Spans (demoR.phiLoss ()) [1, 2] := by
  intro v h
  have := h 1 (by simp)
  funext a
  rw [Subsingleton.elim a 0]
  simpa [demoR, dotProduct] using this

/-- `3 = (3/5)·1 + (6/5)·2` is the smallest representation, and each coefficient is multiplied by `1 - 1/2`. -/
example : ∃ M, attribute' demoR fresh ⟨[3], 1, true⟩ (some ⟨[1, 2], 1, true⟩) = .ok M ∧ M.f 0 0 = 3 / 10 ∧ M.f 1 0 = 3 / 5 := by
  obtain ⟨M, h1, -, -, h4⟩ := trak_ok demoR fresh rfl ⟨[1, 2], 1, true⟩ ⟨[3], 1, true⟩ (by norm_num) (by norm_num) rfl rfl (by simp) (by simp)
    (by simp [demoR]) fun c _ => (kernel_det 0 le_rfl (demoR.phiLoss c) [1, 2]).2 (.inr demoR_spans)
  have hinv : (kernel 0 [fun _ : Fin 1 => (1 : ℝ), fun _ => 2])⁻¹ = Matrix.of fun _ _ => (1 / 5 : ℝ) := by
    refine Matrix.inv_eq_right_inv ?_
    ext a b
    rw [Subsingleton.elim a 0, Subsingleton.elim b 0]
    simp [Matrix.mul_apply, kernel]
    norm_num
  refine ⟨M, h1, ?_, ?_⟩
  · rw [h4 0 (by simp) 0 (by simp)]
    simp only [coef, demoR, List.map_cons, List.map_nil, hinv]
    simp [mulVec, dotProduct]; norm_num
  · rw [h4 1 (by simp) 0 (by simp)]
    simp only [coef, demoR, List.map_cons, List.map_nil, hinv]
    simp [mulVec, dotProduct]; norm_num

/-- `cache` and `self_attribute` succeed on the same training set, and `cache` fails on samples without a gradient. -/
example : (∃ s, cache demoR fresh ⟨[1, 2], 1, true⟩ = .ok s) ∧ (∃ M, selfAttribute demoR fresh (some ⟨[1, 2], 1, true⟩) = .ok M) ∧
    cache demoR fresh ⟨[0, 0], 1, true⟩ = .error .runtimeError := by
  have h := C179_exists_others demoR le_rfl fresh ⟨[1, 2], 1, true⟩ (by norm_num) rfl (by simp)
  refine ⟨h.1.2 (.inr fun c _ => demoR_spans), (h.2.2 rfl (by simp [demoR])).1.2 (.inr fun c _ => demoR_spans), ?_⟩
  refine (C179_exists_others demoR le_rfl fresh ⟨[0, 0], 1, true⟩ (by norm_num) rfl (by simp)).2.1 ?_
  rintro (h | h)
  · simp [demoR] at h
  · have := congrFun (h () (by simp [demoR]) (fun _ => 1) (by simp [demoR, dotProduct])) 0
    norm_num at this

/-- Nothing spans two dimensions with one sample, so the unregularised call fails. -/
example : ¬ Spans (fun (x : ℝ) (_ : Fin 2) => x) [1] := by
  intro h
  have := h ![1, -1] (by simp [dotProduct, Fin.sum_univ_two])
  simpa using congrFun this 0

end Verif.TRAK
