import Verif.Script.OutlierModel
import Verif.Bench.LogRegProps
import Verif.Attr.RelatifProps
import Verif.Attr.SymmetryProps

/-!
# C215: the example comparing influence and relative influence
-/

namespace Verif.Outlier

open Verif.LogReg Matrix

/-! ## The data -/

/-- **C215.** With `n > 0` points per cluster one point of the second cluster is replaced: there are `n + 1` points with label 0 and `n - 1` with label 1, the
outlier has label 0, and all other points keep place and label. -/
theorem C215_data {A : Type} (class0 class1 : List A) (h : class1.length = class0.length) (outlier : A) :
    (class0 = [] → createData class0 class1 outlier = .error .indexError) ∧
    (class0 ≠ [] → ∃ x y, createData class0 class1 outlier = .ok (x, y, class0.length) ∧ x.length = 2 * class0.length ∧ y.length = 2 * class0.length ∧
      y.count 0 = class0.length + 1 ∧ y.count 1 = class0.length - 1 ∧
      x[class0.length]? = some outlier ∧ y[class0.length]? = some 0 ∧
      ∀ i, i ≠ class0.length → x[i]? = (class0 ++ class1)[i]? ∧ (i < 2 * class0.length → y[i]? = some (if i < class0.length then 0 else 1))) := by
  constructor
  · rintro rfl
    have : class1 = [] := List.length_eq_zero_iff.1 h
    subst this
    rfl
  · intro hne
    have hp : 0 < class0.length := List.length_pos_iff.2 hne
    unfold createData
    simp only [List.length_append, h]
    rw [if_neg (by omega)]
    refine ⟨_, _, rfl, by simp [h]; omega, by simp; omega, ?_, ?_, ?_, ?_, ?_⟩
    · obtain ⟨m, hm⟩ : ∃ m, class0.length = m + 1 := ⟨class0.length - 1, by omega⟩
      rw [hm, List.set_append_right _ _ (by simp)]
      simp [List.replicate_succ, List.count_replicate]
    · obtain ⟨m, hm⟩ : ∃ m, class0.length = m + 1 := ⟨class0.length - 1, by omega⟩
      rw [hm, List.set_append_right _ _ (by simp)]
      simp [List.replicate_succ, List.count_replicate]
    · rw [List.getElem?_set_self (by simp; omega)]
    · rw [List.getElem?_set_self (by simp; omega)]
    · intro i hi
      refine ⟨List.getElem?_set_ne (Ne.symm hi), fun hi2 => ?_⟩
      rw [List.getElem?_set_ne (Ne.symm hi)]
      by_cases hlt : i < class0.length
      · rw [List.getElem?_append_left (by simpa using hlt), if_pos hlt, List.getElem?_replicate, if_pos hlt]
      · rw [List.getElem?_append_right (by simp; omega), if_neg hlt, List.getElem?_replicate, if_pos (by simp; omega)]

/-- A case with two points per cluster. -/
example : createData [10, 11] [20, 21] 99 = .ok ([10, 11, 99, 21], [0, 0, 0, 1], 2) := rfl

/-! ## Gradients of the classes -/

/-- The predicted probabilities add up to one. -/
theorem probs_sum {n c : ℕ} (x : Fin n → ℝ) (k0 : Fin c) (θ : Fin (c * n + c) → ℝ) : ∑ k, Real.exp (-sampleLoss θ (x, k)) = 1 := by
  have hpos := sum_exp_pos (logits θ x) k0
  have : ∀ k, Real.exp (-sampleLoss θ (x, k)) = Real.exp (logits θ x k) / ∑ u, Real.exp (logits θ x u) := by
    intro k
    unfold sampleLoss logSoftmax
    rw [neg_neg, Real.exp_sub, Real.exp_log hpos]
  simp_rw [this]
  rw [← Finset.sum_div, div_self hpos.ne']

/-- **C215.** The loss gradients of an input for the different labels, weighted by the predicted probabilities of the labels, add up to zero. -/
theorem C215_gradients {n c : ℕ} (x : Fin n → ℝ) (k0 : Fin c) (θ : Fin (c * n + c) → ℝ) :
    ∑ k, Real.exp (-sampleLoss θ (x, k)) • lossGrad θ (x, k) = 0 := by
  have hd : ∀ k, HasFDerivAt (fun t => sampleLoss t (x, k)) (fderiv ℝ (fun t => sampleLoss t (x, k)) θ) θ := fun k =>
    ((sampleLoss_smooth (x, k)).differentiable (by norm_num) θ).hasFDerivAt
  have h1 : HasFDerivAt (fun t => ∑ k, Real.exp (-sampleLoss t (x, k)))
      (∑ k, Real.exp (-sampleLoss θ (x, k)) • -fderiv ℝ (fun t => sampleLoss t (x, k)) θ) θ :=
    HasFDerivAt.fun_sum (𝕜 := ℝ) fun k _ => HasFDerivAt.exp (hd k).fun_neg
  have h2 : HasFDerivAt (fun t => ∑ k, Real.exp (-sampleLoss t (x, k))) (0 : (Fin (c * n + c) → ℝ) →L[ℝ] ℝ) θ := by
    simp_rw [probs_sum x k0]
    exact hasFDerivAt_const _ _
  have h3 := h1.unique h2
  funext i
  have h4 := congrArg (fun L : (Fin (c * n + c) → ℝ) →L[ℝ] ℝ => L (Pi.single i 1)) h3
  simp only [smul_neg, Finset.sum_neg_distrib, _root_.neg_apply, _root_.sum_apply, _root_.smul_apply,
    _root_.zero_apply, neg_eq_zero, smul_eq_mul] at h4
  simp only [Finset.sum_apply, Pi.smul_apply, smul_eq_mul, Pi.zero_apply, lossGrad, Attr.gradAt]
  exact h4

/-- The output `k` as a linear map of the parameters. -/
noncomputable def outLin {n c : ℕ} (x : Fin n → ℝ) (k : Fin c) : (Fin (c * n + c) → ℝ) →L[ℝ] ℝ :=
  ∑ j, x j • ContinuousLinearMap.proj (R := ℝ) (φ := fun _ : Fin (c * n + c) => ℝ) (Fin.castAdd c (finProdFinEquiv (k, j)))
    + ContinuousLinearMap.proj (R := ℝ) (φ := fun _ : Fin (c * n + c) => ℝ) (Fin.natAdd (c * n) k)

theorem outLin_apply {n c : ℕ} (x : Fin n → ℝ) (k : Fin c) (θ : Fin (c * n + c) → ℝ) : outLin x k θ = logits θ x k := by
  simp [outLin, logits, _root_.sum_apply, mul_comm]

/-- **C215.** The gradient in closed form: the difference of predicted probability and indicator of the label, for weights times the input. -/
theorem C215_gradient_entries {n c : ℕ} (x : Fin n → ℝ) (y : Fin c) (θ : Fin (c * n + c) → ℝ) (k : Fin c) :
    lossGrad θ (x, y) (Fin.natAdd (c * n) k) = Real.exp (-sampleLoss θ (x, k)) - (if k = y then 1 else 0) ∧
    ∀ j, lossGrad θ (x, y) (Fin.castAdd c (finProdFinEquiv (k, j))) = (Real.exp (-sampleLoss θ (x, k)) - (if k = y then 1 else 0)) * x j := by
  have hpos := sum_exp_pos (logits θ x) y
  have hf : (fun t => sampleLoss t (x, y)) = fun t => Real.log (∑ u, Real.exp (outLin x u t)) - outLin x y t := by
    funext t
    simp only [outLin_apply, sampleLoss, logSoftmax]
    ring
  have hp : ∀ k, Real.exp (-sampleLoss θ (x, k)) = (∑ u, Real.exp (logits θ x u))⁻¹ * Real.exp (logits θ x k) := by
    intro k
    unfold sampleLoss logSoftmax
    rw [neg_neg, Real.exp_sub, Real.exp_log hpos, div_eq_mul_inv, mul_comm]
  have hd : HasFDerivAt (fun t => sampleLoss t (x, y))
      ((∑ u, Real.exp (outLin x u θ))⁻¹ • (∑ u, Real.exp (outLin x u θ) • outLin x u) - outLin x y) θ := by
    rw [hf]
    refine HasFDerivAt.fun_sub (HasFDerivAt.log (HasFDerivAt.fun_sum (𝕜 := ℝ) fun u _ => HasFDerivAt.exp (outLin x u).hasFDerivAt) ?_) (outLin x y).hasFDerivAt
    simp only [outLin_apply]
    exact hpos.ne'
  have hb : ∀ u : Fin c, outLin x u (Pi.single (Fin.natAdd (c * n) k) 1) = if u = k then 1 else 0 := by
    intro u
    rw [outLin_apply]
    unfold logits
    have h0 : ∀ j, (Pi.single (Fin.natAdd (c * n) k) 1 : Fin (c * n + c) → ℝ) (Fin.castAdd c (finProdFinEquiv (u, j))) = 0 := fun j => by
      rw [Pi.single_apply, if_neg]
      intro h
      have := congrArg Fin.val h
      simp only [Fin.val_castAdd, Fin.val_natAdd] at this
      have := (finProdFinEquiv (u, j)).isLt
      omega
    simp only [h0, zero_mul, Finset.sum_const_zero, zero_add, Pi.single_apply, (Fin.natAdd_injective c (c * n)).eq_iff]
  have hw : ∀ (u : Fin c) j, outLin x u (Pi.single (Fin.castAdd c (finProdFinEquiv (k, j))) 1) = if u = k then x j else 0 := by
    intro u j
    rw [outLin_apply]
    unfold logits
    have h0 : (Pi.single (Fin.castAdd c (finProdFinEquiv (k, j))) 1 : Fin (c * n + c) → ℝ) (Fin.natAdd (c * n) u) = 0 := by
      rw [Pi.single_apply, if_neg]
      intro h
      have := congrArg Fin.val h
      simp only [Fin.val_castAdd, Fin.val_natAdd] at this
      have := (finProdFinEquiv (k, j)).isLt
      omega
    rw [h0, add_zero]
    simp only [Pi.single_apply, (Fin.castAdd_injective (c * n) c).eq_iff, finProdFinEquiv.injective.eq_iff, Prod.mk.injEq, ite_mul, one_mul, zero_mul]
    by_cases hu : u = k
    · simp [hu]
    · simp [hu]
  refine ⟨?_, fun j => ?_⟩
  · unfold lossGrad Attr.gradAt
    rw [hd.fderiv]
    simp only [_root_.sub_apply, _root_.smul_apply, _root_.sum_apply, hb, smul_eq_mul, outLin_apply, hp]
    simp [eq_comm]
  · unfold lossGrad Attr.gradAt
    rw [hd.fderiv]
    simp only [_root_.sub_apply, _root_.smul_apply, _root_.sum_apply, hw, smul_eq_mul, outLin_apply, hp]
    simp only [mul_ite, mul_zero, Finset.sum_ite_eq', Finset.mem_univ, if_true, eq_comm (a := y)]
    split_ifs <;> ring

/-- For two classes the gradients of an input for any two labels are non-zero multiples of each other. -/
theorem grad_multiple {n : ℕ} (x : Fin n → ℝ) (θ : Fin (2 * n + 2) → ℝ) (y y' : Fin 2) : ∃ k : ℝ, k ≠ 0 ∧ lossGrad θ (x, y') = k • lossGrad θ (x, y) := by
  have h := C215_gradients x 0 θ
  rw [Fin.sum_univ_two] at h
  have hp0 := Real.exp_pos (-sampleLoss θ (x, 0))
  have hp1 := Real.exp_pos (-sampleLoss θ (x, 1))
  have h01 : lossGrad θ (x, 0) = (-(Real.exp (-sampleLoss θ (x, 1)) / Real.exp (-sampleLoss θ (x, 0)))) • lossGrad θ (x, 1) := by
    funext i
    have := congrFun h i
    simp only [Pi.add_apply, Pi.smul_apply, smul_eq_mul, Pi.zero_apply] at this ⊢
    rw [neg_mul, div_mul_eq_mul_div, eq_neg_iff_add_eq_zero]
    field_simp
    linarith
  have h10 : lossGrad θ (x, 1) = (-(Real.exp (-sampleLoss θ (x, 0)) / Real.exp (-sampleLoss θ (x, 1)))) • lossGrad θ (x, 0) := by
    funext i
    have := congrFun h i
    simp only [Pi.add_apply, Pi.smul_apply, smul_eq_mul, Pi.zero_apply] at this ⊢
    rw [neg_mul, div_mul_eq_mul_div, eq_neg_iff_add_eq_zero]
    field_simp
    linarith
  have hc : ∀ y : Fin 2, y = 0 ∨ y = 1 := by decide
  rcases hc y with rfl | rfl <;> rcases hc y' with rfl | rfl
  · exact ⟨1, one_ne_zero, (one_smul _ _).symm⟩
  · exact ⟨_, neg_ne_zero.2 (div_pos hp0 hp1).ne', h10⟩
  · exact ⟨_, neg_ne_zero.2 (div_pos hp1 hp0).ne', h01⟩
  · exact ⟨1, one_ne_zero, (one_smul _ _).symm⟩

/-! ## The dominating sample -/

theorem argmax_spec (f : ℕ → ℝ) (n i : ℕ) : argmax f n = some i ↔ i < n ∧ (∀ k < n, f k ≤ f i) ∧ ∀ k < i, f k < f i := by
  induction n generalizing i with
  | zero => simp [argmax]
  | succ n ih =>
    unfold argmax
    cases ha : argmax f n with
    | none =>
      have hn : n = 0 := by
        by_contra hn
        cases n with
        | zero => exact hn rfl
        | succ m =>
          unfold argmax at ha
          split at ha
          · simp at ha
          · split_ifs at ha
      subst hn
      simp only [Option.some.injEq]
      constructor
      · rintro rfl
        exact ⟨by omega, fun k hk => by obtain rfl : k = 0 := by omega
                                        exact le_rfl, fun k hk => by omega⟩
      · rintro ⟨h, _⟩; omega
    | some j =>
      obtain ⟨h1, h2, h3⟩ := (ih j).1 ha
      simp only
      by_cases hlt : f j < f n
      · rw [if_pos hlt, Option.some.injEq]
        constructor
        · rintro rfl
          refine ⟨by omega, fun k hk => ?_, fun k hk => lt_of_le_of_lt (h2 k hk) hlt⟩
          rcases Nat.lt_succ_iff_lt_or_eq.1 hk with hk | rfl
          · exact (lt_of_le_of_lt (h2 k hk) hlt).le
          · exact le_rfl
        · rintro ⟨g1, g2, g3⟩
          rcases Nat.lt_succ_iff_lt_or_eq.1 g1 with g1 | rfl
          · have := g2 n (by omega)
            have := h2 i g1
            exact absurd (lt_of_lt_of_le hlt ‹f n ≤ f i›) (not_lt.2 this)
          · rfl
      · rw [if_neg hlt, Option.some.injEq]
        constructor
        · rintro rfl
          refine ⟨by omega, fun k hk => ?_, h3⟩
          rcases Nat.lt_succ_iff_lt_or_eq.1 hk with hk | rfl
          · exact h2 k hk
          · exact not_lt.1 hlt
        · rintro ⟨g1, g2, g3⟩
          rcases Nat.lt_succ_iff_lt_or_eq.1 g1 with g1 | rfl
          · rcases Nat.lt_trichotomy i j with hij | rfl | hij
            · exact absurd (g2 j (by omega)) (not_le.2 (h3 i hij))
            · rfl
            · exact absurd (h2 i g1) (not_le.2 (g3 j hij))
          · exact absurd (g3 j h1) hlt

/-- **C215.** The dominating training sample of a test point is the first with the largest absolute score; it exists if there is a training sample. -/
theorem C215_dominant (M : Mat ℝ) (j i : ℕ) :
    (dominant M j = .ok i ↔ i < M.r ∧ (∀ k < M.r, |M.f k j| ≤ |M.f i j|) ∧ ∀ k < i, |M.f k j| < |M.f i j|) ∧
    (0 < M.r → ∃ k, dominant M j = .ok k) := by
  constructor
  · rw [← argmax_spec (fun i => |M.f i j|) M.r i]
    unfold dominant
    cases argmax (fun i => |M.f i j|) M.r with
    | none => simp
    | some k => simp
  · intro h
    unfold dominant
    cases ha : argmax (fun i => |M.f i j|) M.r with
    | some k => exact ⟨k, rfl⟩
    | none =>
      exfalso
      obtain ⟨m, hm⟩ : ∃ m, M.r = m + 1 := ⟨M.r - 1, by omega⟩
      rw [hm] at ha
      unfold argmax at ha
      split at ha
      · simp at ha
      · split_ifs at ha

theorem dominant_scale (M M' : Mat ℝ) (j : ℕ) (hr : M'.r = M.r) (k : ℝ) (hk : k ≠ 0) (h : ∀ i < M.r, M'.f i j = k * M.f i j) :
    dominant M' j = dominant M j := by
  have e : ∀ i, argmax (fun i => |M'.f i j|) M'.r = some i ↔ argmax (fun i => |M.f i j|) M.r = some i := by
    intro i
    rw [argmax_spec, argmax_spec, hr]
    have habs : ∀ a < M.r, |M'.f a j| = |k| * |M.f a j| := fun a ha => by rw [h a ha, abs_mul]
    have hpos : 0 < |k| := abs_pos.2 hk
    constructor
    · rintro ⟨h1, h2, h3⟩
      refine ⟨h1, fun a ha => ?_, fun a ha => ?_⟩
      · have := h2 a ha
        rw [habs a ha, habs i h1] at this
        exact le_of_mul_le_mul_left this hpos
      · have := h3 a ha
        rw [habs a (by omega), habs i h1] at this
        exact lt_of_mul_lt_mul_left this hpos.le
    · rintro ⟨h1, h2, h3⟩
      refine ⟨h1, fun a ha => ?_, fun a ha => ?_⟩
      · rw [habs a ha, habs i h1]
        exact mul_le_mul_of_nonneg_left (h2 a ha) hpos.le
      · rw [habs a (by omega), habs i h1]
        exact mul_lt_mul_of_pos_left (h3 a ha) hpos
  have e2 : argmax (fun i => |M'.f i j|) M'.r = argmax (fun i => |M.f i j|) M.r := Option.ext e
  unfold dominant
  rw [e2]

/-- The scores of a solver that applies a matrix to vectors, for the three methods of the example: one number per training sample divides the products. -/
theorem scores_entry {n c : ℕ} (solve : List (Sample n c) → (Fin (c * n + c) → ℝ) → Option (Fin (c * n + c) → ℝ)) (θ : Fin (c * n + c) → ℝ)
    (tr : Loader (Sample n c)) (h1 : 0 < tr.bs) (s1 : tr.supported = true) (P : ℕ → Matrix (Fin (c * n + c)) (Fin (c * n + c)) ℝ)
    (hP : ∀ b < tr.nb, ∀ v, solve (tr.batch b) v = some (P b *ᵥ v)) (m : Option String) (hm : m ∈ [none, some "l", some "theta"]) :
    ∃ d : Sample n c → ℝ, ∀ te : Loader (Sample n c), 0 < te.bs → te.supported = true →
      ∃ M, scores solve θ tr te m = .ok M ∧ M.r = tr.data.length ∧ M.c = te.data.length ∧
        ∀ i (hi : i < tr.data.length) j (hj : j < te.data.length),
          M.f i j = (lossGrad θ tr.data[i] ⬝ᵥ (∑ b ∈ Finset.range tr.nb, P b) *ᵥ lossGrad θ te.data[j]) / d tr.data[i] := by
  have hok : ∀ s, m = some s → (Attr.relSub (fun θ s => lossGrad (n := n) (c := c) θ s) (fun θ s => lossGrad θ s) fun _ => solve).methodOk s = true := by
    intro s hs
    simp only [List.mem_cons, List.not_mem_nil, or_false] at hm
    rcases hm with rfl | rfl | rfl
    · exact Option.noConfusion rfl (heq_of_eq hs)
    · cases hs; rfl
    · cases hs; rfl
  refine ⟨fun x => match m with
    | none => 1
    | some m => (Attr.relSub (fun θ s => lossGrad (n := n) (c := c) θ s) (fun θ s => lossGrad θ s) fun _ => solve).denom θ tr m (lossGrad θ x)
        (if m = "l" then some (lossGrad θ x) else none), fun te h2 s2 => ?_⟩
  obtain ⟨M, e, r, cc, f⟩ := Attr.C05_attribute_entry (Attr.relSub (fun θ s => lossGrad (n := n) (c := c) θ s) (fun θ s => lossGrad θ s) fun _ => solve)
    [θ] (some tr) m tr te h1 h2 s1 s2 hok
  refine ⟨M, e, r, cc, fun i hi j hj => ?_⟩
  rw [f i hi j hj]
  have hacc := Attr.accumulate_ok' solve tr s1 P hP
  cases m with
  | none =>
    simp only [Attr.score, Attr.relSub, Option.getD_some, hacc, List.map_cons, List.map_nil, List.sum_cons, List.sum_nil, List.length_cons, List.length_nil]
    simp [dotProduct]
  | some s =>
    simp only [Attr.score, Attr.relSub, Option.getD_some, hacc, List.map_cons, List.map_nil, List.sum_cons, List.sum_nil, List.length_cons, List.length_nil]
    simp [dotProduct]

/-- **C215.** For two classes the sample that dominates a test point does not depend on the label the test point is given (the example gives all points of the
grid label 0), for plain and relative influence, whatever the solver as long as it is linear. -/
theorem C215_labels {n : ℕ} (solve : List (Sample n 2) → (Fin (2 * n + 2) → ℝ) → Option (Fin (2 * n + 2) → ℝ)) (θ : Fin (2 * n + 2) → ℝ)
    (tr te te' : Loader (Sample n 2)) (h1 : 0 < tr.bs) (s1 : tr.supported = true) (h2 : 0 < te.bs) (s2 : te.supported = true) (h3 : 0 < te'.bs)
    (s3 : te'.supported = true) (hx : te'.data.map Prod.fst = te.data.map Prod.fst)
    (P : ℕ → Matrix (Fin (2 * n + 2)) (Fin (2 * n + 2)) ℝ) (hP : ∀ b < tr.nb, ∀ v, solve (tr.batch b) v = some (P b *ᵥ v))
    (m : Option String) (hm : m ∈ [none, some "l", some "theta"]) :
    ∃ M M', scores solve θ tr te m = .ok M ∧ scores solve θ tr te' m = .ok M' ∧ ∀ j < te.data.length, dominant M' j = dominant M j := by
  obtain ⟨d, hd⟩ := scores_entry solve θ tr h1 s1 P hP m hm
  obtain ⟨M, e, r, _, f⟩ := hd te h2 s2
  obtain ⟨M', e', r', _, f'⟩ := hd te' h3 s3
  refine ⟨M, M', e, e', fun j hj => ?_⟩
  have hlen : te'.data.length = te.data.length := by
    have := congrArg List.length hx
    simpa using this
  have hj' : j < te'.data.length := by omega
  have hxj : te'.data[j].1 = te.data[j].1 := by
    have := congrArg (fun l => l[j]?) hx
    simpa [hj, hj'] using this
  obtain ⟨k, hk, hg⟩ := grad_multiple te.data[j].1 θ te.data[j].2 te'.data[j].2
  have hg' : lossGrad θ te'.data[j] = k • lossGrad θ te.data[j] := by
    have e1 : te'.data[j] = (te.data[j].1, te'.data[j].2) := by rw [← hxj]
    rw [e1, hg]
  refine dominant_scale M M' j (by rw [r, r']) k hk fun i hi => ?_
  rw [r] at hi
  rw [f i hi j hj, f' i hi j hj', hg', mulVec_smul, dotProduct_smul, smul_eq_mul, mul_div_assoc]

/-- A case: the identity as solver, a training loader of two batches. -/
example : ∃ M M', scores (n := 1) (c := 2) (fun _ v => some v) (fun _ => 1) ⟨[(![1], 0), (![2], 1), (![5], 0)], 2, true⟩ ⟨[(![3], 0)], 1, true⟩ (some "theta") = .ok M ∧
    scores (n := 1) (c := 2) (fun _ v => some v) (fun _ => 1) ⟨[(![1], 0), (![2], 1), (![5], 0)], 2, true⟩ ⟨[(![3], 1)], 1, true⟩ (some "theta") = .ok M' ∧
    ∀ j < 1, dominant M' j = dominant M j :=
  C215_labels (n := 1) (fun _ v => some v) (fun _ => 1) ⟨[(![1], 0), (![2], 1), (![5], 0)], 2, true⟩ ⟨[(![3], 0)], 1, true⟩ ⟨[(![3], 1)], 1, true⟩
    (by norm_num) rfl (by norm_num) rfl (by norm_num) rfl rfl (fun _ => 1) (fun _ _ v => by rw [one_mulVec]) (some "theta") (by simp)

/-- **C215.** LiSSA with given draws is such a solver. -/
theorem C215_lissa {p : ℕ} (hv : List ℕ → Matrix (Fin p) (Fin p) ℝ) (perm : ℕ → ℕ → List ℕ) (bs rep T : ℕ) (hrep : 0 < rep) (d s : ℝ) (hs : s ≠ 0) :
    ∃ P : Matrix (Fin p) (Fin p) ℝ, ∀ v, (open Classical in Hessian.ihvpLissa hv perm bs rep T d s v) = .ok (some (P *ᵥ v)) := by
  classical
  obtain ⟨L, h1, h2⟩ := Symmetry.C211_lissa_linear hv perm bs rep T hrep d s hs
  let l : (Fin p → ℝ) →ₗ[ℝ] (Fin p → ℝ) :=
    { toFun := L
      map_add' := fun u v => by simpa using h2 1 1 u v
      map_smul' := fun a u => by simpa using h2 a 0 u 0 }
  refine ⟨LinearMap.toMatrix' l, fun v => ?_⟩
  have : LinearMap.toMatrix' l *ᵥ v = L v := by
    rw [LinearMap.toMatrix'_mulVec]
    rfl
  rw [this]
  convert h1 v

/-- **C215.** The run of the example, where LiSSA draws anew for every row and every call: with the same draws and other labels of the test points every
test point is dominated by the same training sample. -/
theorem C215_labels_draws {n : ℕ} (hv : List ℕ → Matrix (Fin (2 * n + 2)) (Fin (2 * n + 2)) ℝ) (draws : ℕ → ℕ → ℕ → ℕ → List ℕ)
    (θ : Fin (2 * n + 2) → ℝ) (tr te te' : List (Sample n 2)) (htr : tr ≠ []) (hte : te ≠ []) (hx : te'.map Prod.fst = te.map Prod.fst)
    (m : Option String) (hm : m ∈ [none, some "l", some "theta"]) :
    ∃ M M', exampleScores hv draws θ tr te m = .ok M ∧ exampleScores hv draws θ tr te' m = .ok M' ∧ M.r = tr.length ∧ M.c = te.length ∧
      ∀ j < te.length, dominant M' j = dominant M j := by
  have hlen : te'.length = te.length := by
    have := congrArg List.length hx
    simpa using this
  have hte' : te' ≠ [] := by
    rintro rfl
    exact hte (List.length_eq_zero_iff.1 hlen.symm)
  have e : ∀ t : List (Sample n 2), t ≠ [] → ¬(tr.isEmpty = true ∨ t.isEmpty = true) := by
    intro t ht
    simp [htr, ht]
  unfold exampleScores
  rw [if_neg (e te hte), if_neg (e te' hte'), if_neg (not_not.2 hm), if_neg (not_not.2 hm)]
  refine ⟨_, _, rfl, rfl, rfl, rfl, fun j hj => ?_⟩
  have hj' : j < te'.length := by omega
  have hxj : te'[j].1 = te[j].1 := by
    have := congrArg (fun l => l[j]?) hx
    simpa [hj, hj'] using this
  obtain ⟨k, hk, hg⟩ := grad_multiple te[j].1 θ te[j].2 te'[j].2
  have hg' : lossGrad θ te'[j] = k • lossGrad θ te[j] := by
    have e1 : te'[j] = (te[j].1, te'[j].2) := by rw [← hxj]
    rw [e1, hg]
  obtain ⟨P, hP⟩ := C215_lissa hv (draws 1 j) 1 1 200 (by norm_num) 0 100 (by norm_num)
  have hest : ∀ v, estimate hv (draws 1 j) v = P *ᵥ v := by
    intro v
    unfold estimate
    rw [hP v]
  refine dominant_scale _ _ j rfl k hk fun i _ => ?_
  have g1 : (te'.map fun s => lossGrad θ s).getD j 0 = k • lossGrad θ te[j] := by
    rw [List.getD_eq_getElem _ _ (by simpa using hj'), List.getElem_map, hg']
  have g2 : (te.map fun s => lossGrad θ s).getD j 0 = lossGrad θ te[j] := by
    rw [List.getD_eq_getElem _ _ (by simpa using hj), List.getElem_map]
  simp only [g1, g2, hest, mulVec_smul, Pi.smul_apply, smul_eq_mul]
  rw [← mul_div_assoc, Finset.mul_sum]
  congr 1
  exact Finset.sum_congr rfl fun a _ => by ring

/-- **C215.** What the scores of the example are: LiSSA multiplies the vector of every row by a matrix of its own (that of its draws); the entry is the product of the
training gradient with the estimate for the test point, divided by nothing, by the root of the product of the training gradient with its own estimate, or by the
length of that estimate (both at least `1e-12` before the root, after the root). -/
theorem C215_scores {n c : ℕ} (hv : List ℕ → Matrix (Fin (c * n + c)) (Fin (c * n + c)) ℝ) (draws : ℕ → ℕ → ℕ → ℕ → List ℕ)
    (θ : Fin (c * n + c) → ℝ) (tr te : List (Sample n c)) (htr : tr ≠ []) (hte : te ≠ []) :
    ∃ P : ℕ → ℕ → Matrix (Fin (c * n + c)) (Fin (c * n + c)) ℝ,
      (∀ k i v, (open Classical in Hessian.ihvpLissa hv (draws k i) 1 1 200 0 100 v) = .ok (some (P k i *ᵥ v))) ∧
      ∃ M Ml Mt, exampleScores hv draws θ tr te none = .ok M ∧ exampleScores hv draws θ tr te (some "l") = .ok Ml ∧
        exampleScores hv draws θ tr te (some "theta") = .ok Mt ∧
        ∀ (i : Fin tr.length) (j : Fin te.length),
          let g := lossGrad θ tr[i]
          M.f i j = g ⬝ᵥ (P 1 j *ᵥ lossGrad θ te[j]) ∧
          Ml.f i j = M.f i j / Real.sqrt (max (g ⬝ᵥ (P 0 i *ᵥ g)) (10 ^ (-12 : ℤ))) ∧
          Mt.f i j = M.f i j / max (Real.sqrt ((P 0 i *ᵥ g) ⬝ᵥ (P 0 i *ᵥ g))) (10 ^ (-12 : ℤ)) := by
  choose P hP using fun k i => C215_lissa hv (draws k i) 1 1 200 (by norm_num) 0 100 (by norm_num)
  refine ⟨P, hP, ?_⟩
  have hest : ∀ k i v, estimate hv (draws k i) v = P k i *ᵥ v := by
    intro k i v
    unfold estimate
    rw [hP k i v]
  have e : ¬(tr.isEmpty = true ∨ te.isEmpty = true) := by simp [htr, hte]
  unfold exampleScores
  rw [if_neg e, if_neg e, if_neg e, if_neg (by simp), if_neg (by simp), if_neg (by simp)]
  refine ⟨_, _, _, rfl, rfl, rfl, fun i j => ?_⟩
  have g1 : (tr.map fun s => lossGrad θ s).getD i 0 = lossGrad θ tr[i] := by
    rw [List.getD_eq_getElem _ _ (by simp), List.getElem_map]
    rfl
  have g2 : (te.map fun s => lossGrad θ s).getD j 0 = lossGrad θ te[j] := by
    rw [List.getD_eq_getElem _ _ (by simp), List.getElem_map]
    rfl
  simp only [g1, g2, hest, dotProduct, reduceCtorEq, if_false, div_one, if_true, Option.some.injEq, String.reduceEq, pow_two]
  exact ⟨trivial, trivial, trivial⟩

/-- A case: three training points with two test points labelled 0 or 1. -/
example : ∃ M M', exampleScores (n := 2) (c := 2) (fun _ => 1) (fun _ _ _ _ => [0]) (fun _ => 0) [(![1, 0], 0), (![0, 1], 1), (![0, 3], 0)]
    [(![1, 1], 0), (![0, 2], 0)] (some "l") = .ok M ∧
    exampleScores (n := 2) (c := 2) (fun _ => 1) (fun _ _ _ _ => [0]) (fun _ => 0) [(![1, 0], 0), (![0, 1], 1), (![0, 3], 0)]
    [(![1, 1], 1), (![0, 2], 1)] (some "l") = .ok M' ∧ M.r = 3 ∧ M.c = 2 ∧ ∀ j < 2, dominant M' j = dominant M j :=
  C215_labels_draws (fun _ => 1) (fun _ _ _ _ => [0]) (fun _ => 0) [(![1, 0], 0), (![0, 1], 1), (![0, 3], 0)] [(![1, 1], 0), (![0, 2], 0)]
    [(![1, 1], 1), (![0, 2], 1)] (by simp) (by simp) rfl (some "l") (by simp)

/-- **C215.** With three classes the label matters: two inputs of one dimension and a model where the gradients for labels 0 and 1 are not multiples. -/
theorem C215_three_classes : ¬ ∃ k : ℝ, lossGrad (n := 1) (c := 3) (fun _ => 0) (![1], 1) = k • lossGrad (fun _ => 0) (![1], 0) := by
  rintro ⟨k, hk⟩
  have hp : ∀ u : Fin 3, Real.exp (-sampleLoss (n := 1) (c := 3) (fun _ => 0) (![1], u)) = 1 / 3 := by
    intro u
    have hz : ∀ v : Fin 3, logits (n := 1) (c := 3) (fun _ => 0) ![1] v = 0 := fun v => by simp [logits]
    unfold sampleLoss logSoftmax
    simp only [hz, Real.exp_zero, Finset.sum_const, Finset.card_univ, Fintype.card_fin]
    rw [zero_sub, neg_neg, Real.exp_neg, Real.exp_log (by norm_num)]
    norm_num
  have h0 := congrFun hk (Fin.natAdd (3 * 1) 0)
  have h2 := congrFun hk (Fin.natAdd (3 * 1) 2)
  rw [Pi.smul_apply, (C215_gradient_entries _ _ _ _).1, (C215_gradient_entries _ _ _ _).1, hp] at h0 h2
  norm_num at h0 h2
  rw [if_neg (by decide), if_neg (by decide)] at h2
  norm_num at h2
  linarith

/-! ## The picture -/

/-- **C215.** The grid has `res * res` points and runs from corner to corner. -/
theorem C215_corners (res : ℕ) (h : 2 ≤ res) (x0 x1 y0 y1 : ℝ) :
    (gridPoints res (linspace x0 x1 res) (linspace y0 y1 res)).length = res * res ∧
    linspace x0 x1 res 0 = x0 ∧ linspace x0 x1 res (res - 1) = x1 ∧
    ∀ k, linspace x0 x1 res (k + 1) - linspace x0 x1 res k = (x1 - x0) / ((res : ℝ) - 1) := by
  have hc : ((res - 1 : ℕ) : ℝ) = (res : ℝ) - 1 := by
    rw [Nat.cast_sub (by omega), Nat.cast_one]
  have hne : (res : ℝ) - 1 ≠ 0 := by
    have : (2 : ℝ) ≤ res := by exact_mod_cast h
    intro h0
    linarith
  refine ⟨by simp [gridPoints, List.length_flatMap], by simp [linspace], ?_, fun k => ?_⟩
  · unfold linspace
    rw [hc, mul_div_cancel₀ _ hne]
    ring
  · unfold linspace
    rw [hc]
    push_cast
    ring

theorem getElem_grid (res : ℕ) (xs ys : ℕ → ℝ) (m a b : ℕ) (ha : a < m) (hb : b < res) :
    ((List.range m).flatMap fun a => (List.range res).map fun b => (![xs b, ys a] : Fin 2 → ℝ))[a * res + b]? = some ![xs b, ys a] := by
  induction m with
  | zero => omega
  | succ m ih =>
    rw [List.range_succ, List.flatMap_append]
    have hl : ((List.range m).flatMap fun a => (List.range res).map fun b => (![xs b, ys a] : Fin 2 → ℝ)).length = m * res := by
      simp [List.length_flatMap]
    by_cases ham : a < m
    · rw [List.getElem?_append_left]
      · exact ih ham
      · rw [hl]
        have : (a + 1) * res ≤ m * res := Nat.mul_le_mul_right _ ham
        rw [Nat.add_mul] at this
        omega
    · obtain rfl : a = m := by omega
      rw [List.getElem?_append_right (by rw [hl]; omega), hl, Nat.add_sub_cancel_left]
      simp [hb]

/-- **C215.** The entry `(a, b)` of the mask drawn at `(xs b, ys a)` is about the test point `(xs b, ys a)`, and it is set exactly if the outlier has the largest
absolute score there (and no earlier sample the same). -/
theorem C215_mask (M : Mat ℝ) (idx res : ℕ) (xs ys : ℕ → ℝ) (a b : ℕ) (ha : a < res) (hb : b < res) (hM : 0 < M.r) :
    (gridPoints res xs ys)[a * res + b]? = some ![xs b, ys a] ∧
    ∃ v, mask M idx res a b = .ok v ∧ (v = true ↔ idx < M.r ∧ (∀ k < M.r, |M.f k (a * res + b)| ≤ |M.f idx (a * res + b)|) ∧
      ∀ k < idx, |M.f k (a * res + b)| < |M.f idx (a * res + b)|) := by
  refine ⟨getElem_grid res xs ys res a b ha hb, ?_⟩
  obtain ⟨i, hi⟩ := (C215_dominant M (a * res + b) 0).2 hM
  refine ⟨decide (i = idx), ?_, ?_⟩
  · unfold mask
    rw [hi]
    rfl
  · rw [decide_eq_true_iff, ← (C215_dominant M (a * res + b) idx).1, hi, Except.ok.injEq]

/-- **C215.** The curve above the x-axis is where the two outputs agree, provided the second weights differ by more than `1e-7`; otherwise a vertical line is
drawn, which is where they agree if the second weights are the same. -/
theorem C215_boundary (θ : Fin (2 * 2 + 2) → ℝ) :
    (∀ f, boundary θ = some (.graph f) → ∀ x y : ℝ, y = f x ↔ logits θ ![x, y] 0 = logits θ ![x, y] 1) ∧
    (∀ x0, boundary θ = some (.vertical x0) →
      θ (Fin.castAdd 2 (finProdFinEquiv (0, 1))) = θ (Fin.castAdd 2 (finProdFinEquiv (1, 1))) →
      ∀ x y : ℝ, x = x0 ↔ logits θ ![x, y] 0 = logits θ ![x, y] 1) ∧
    (boundary θ = none → θ (Fin.castAdd 2 (finProdFinEquiv (0, 0))) = θ (Fin.castAdd 2 (finProdFinEquiv (1, 0)))) := by
  have hl : ∀ x y : ℝ, logits θ ![x, y] 0 = logits θ ![x, y] 1 ↔
      (θ (Fin.castAdd 2 (finProdFinEquiv (0, 0))) - θ (Fin.castAdd 2 (finProdFinEquiv (1, 0)))) * x +
      (θ (Fin.castAdd 2 (finProdFinEquiv (0, 1))) - θ (Fin.castAdd 2 (finProdFinEquiv (1, 1)))) * y +
      (θ (Fin.natAdd (2 * 2) 0) - θ (Fin.natAdd (2 * 2) 1)) = 0 := by
    intro x y
    unfold logits
    simp only [Fin.sum_univ_two, cons_val_zero, cons_val_one]
    constructor <;> intro h <;> linarith
  unfold boundary
  simp only
  refine ⟨fun f hf x y => ?_, fun x0 hx0 hw x y => ?_, fun hn => ?_⟩
  · split_ifs at hf with hw h2
    swap
    · simp at hf
    simp only [Option.some.injEq, Line.graph.injEq] at hf
    subst hf
    rw [hl]
    have hne : θ (Fin.castAdd 2 (finProdFinEquiv (0, 1))) - θ (Fin.castAdd 2 (finProdFinEquiv (1, 1))) ≠ 0 := by
      intro h0
      rw [h0, abs_zero] at hw
      norm_num at hw
    rw [eq_div_iff hne]
    constructor <;> intro h <;> linarith
  · split_ifs at hx0 with h1 h2
    · simp at hx0
    simp only [Option.some.injEq, Line.vertical.injEq] at hx0
    subst hx0
    rw [hl, hw, eq_div_iff h2]
    constructor <;> intro h <;> linarith
  · split_ifs at hn with h1 h2
    exact sub_eq_zero.1 h2

/-- **C215.** The vertical line is wrong for small differences of the second weights: a model whose outputs agree along a slanted line. -/
theorem C215_boundary_small : ∃ θ : Fin (2 * 2 + 2) → ℝ, ∃ x0, boundary θ = some (.vertical x0) ∧
    ∃ y, logits θ ![x0, y] 0 ≠ logits θ ![x0, y] 1 := by
  have e1 : ((finProdFinEquiv ((0 : Fin 2), (0 : Fin 2)) : Fin (2 * 2)) : ℕ) = 0 := by decide
  have e2 : ((finProdFinEquiv ((0 : Fin 2), (1 : Fin 2)) : Fin (2 * 2)) : ℕ) = 1 := by decide
  have e3 : ((finProdFinEquiv ((1 : Fin 2), (0 : Fin 2)) : Fin (2 * 2)) : ℕ) = 2 := by decide
  have e4 : ((finProdFinEquiv ((1 : Fin 2), (1 : Fin 2)) : Fin (2 * 2)) : ℕ) = 3 := by decide
  refine ⟨fun k => if k.val < 2 then 1 / 10 ^ 8 else 0, 0, ?_, 1, ?_⟩
  · unfold boundary
    simp only [Fin.val_castAdd, Fin.val_natAdd, e1, e2, e3, e4]
    rw [if_neg (by norm_num [abs_of_pos]), if_neg (by norm_num)]
    norm_num
  · unfold logits
    simp only [Fin.sum_univ_two, cons_val_zero, cons_val_one, Fin.val_castAdd, Fin.val_natAdd, e1, e2, e3, e4]
    norm_num

end Verif.Outlier
