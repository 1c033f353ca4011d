import Mathlib.Analysis.Calculus.FDeriv.Mul
import Mathlib.Analysis.Calculus.FDeriv.Pow
import Mathlib.Analysis.Calculus.FDeriv.Pi
import Mathlib.Analysis.Calculus.FDeriv.Comp
import Mathlib.Analysis.Calculus.LocalExtr.Basic
import Mathlib.Algebra.Order.BigOperators.Ring.Finset
import Mathlib.Algebra.BigOperators.Field
import Verif.RPS.SearchProps

/-!
# C51 (instance), C86, C87: RPS attribution
-/

namespace Verif.RPS

open Finset

variable {p c : ℕ} {X : Type}

lemma meanAbs_nonneg (g : Theta p c) (b : ℝ) (h : meanAbs g = some b) : 0 ≤ b := by
  unfold meanAbs at h
  split_ifs at h
  injection h with h
  rw [← h]
  exact div_nonneg (Finset.sum_nonneg fun _ _ => abs_nonneg _) (Nat.cast_nonneg _)

/-- **C51** (for the attributor's objective). `rps_finetune_theta` succeeds iff at least one epoch is requested, the layer has at least one weight and the
mean absolute gradient of the objective at the initial weights is below 10000; otherwise it raises `UnboundLocalError`. -/
theorem C51_finetune_theta {n : ℕ} (L : Loss c) (lam : ℝ) (epochs : ℕ) (F : Fin n → Fin p → ℝ) (Y : Fin n → Fin c → ℝ) (init : Theta p c) :
    ((∃ θ, finetuneTheta L lam epochs F Y init = .ok θ) ↔
      0 < epochs ∧ 0 < c * p ∧ (∑ q, |objGrad L lam F (fun i => activate (Y i)) init q|) / (c * p : ℕ) < 10000) ∧
    ∀ e, finetuneTheta L lam epochs F Y init = .error e → e = .unboundLocalError := by
  have H := C51_fails_iff (fun θ => meanAbs (objGrad L lam F (fun i => activate (Y i)) θ)) (fun v g h => meanAbs_nonneg _ _ h)
    (fun θ => ((lineSearch (objective L lam F (fun i => activate (Y i))) (objGrad L lam F (fun i => activate (Y i)) θ) θ
      (objective L lam F (fun i => activate (Y i)) θ) 38).map Prod.snd).getD θ) epochs init
  refine ⟨?_, H.2⟩
  have hiff : (∃ θ, finetuneTheta L lam epochs F Y init = .ok θ) ↔ ¬ (epochs = 0 ∨ ∀ g,
      meanAbs (objGrad L lam F (fun i => activate (Y i)) init) = some g → 10000 ≤ g) := by
    rw [← H.1]
    constructor
    · rintro ⟨θ, h⟩ h'
      have h'' : finetuneTheta L lam epochs F Y init = .error .unboundLocalError := h'
      rw [h] at h''; cases h''
    · intro h
      cases hr : finetuneTheta L lam epochs F Y init with
      | ok θ => exact ⟨θ, rfl⟩
      | error e => exact absurd ((H.2 e hr) ▸ hr) h
  rw [hiff]
  push Not
  unfold meanAbs
  by_cases hc : c * p = 0
  · simp [hc]
  · simp only [hc, if_false, Option.some.injEq, exists_eq_left', Nat.pos_iff_ne_zero, ne_eq, not_false_iff, true_and]

/-! ## C86: representer decomposition -/

/-- **C86.** Summing the scores of a test sample over all attributed training samples gives `1/n` of its pre-activation under the fine-tuned
weights, up to the gradient of the fine-tuning objective at these weights (zero at an optimum). This holds exactly, for every loss function,
every weights and every data; in particular the scores do not sum to the pre-activation itself unless `n = 1`. -/
theorem C86_decomposition (A : Attributor X p c) (hnorm : A.normalizePre = false) (hlam : A.lam ≠ 0) (θ : Theta p c) (xs : List X)
    (hxs : xs ≠ []) (z : X) (k : Fin c) :
    ∃ s : Fin xs.length → ℝ, (∀ i, A.score θ xs i z k = some (s i)) ∧
      ∑ i, s i = ((∑ j, θ (k, j) * A.feat z j) -
        (∑ j, objGrad A.loss A.lam (fun i : Fin xs.length => A.feat xs[i]) (fun i => activate (A.out xs[i])) θ (k, j) * A.feat z j) / (2 * A.lam)) /
          xs.length := by
  have hlen : xs.length ≠ 0 := by simpa using hxs
  have hn : (xs.length : ℝ) ≠ 0 := by exact_mod_cast hlen
  refine ⟨fun i => dot (A.feat xs[i]) (A.feat z) * (A.loss.grad xs.length (preact (fun i : Fin xs.length => A.feat xs[i]) θ)
    (fun i => activate (A.out xs[i])) i k / (-2 * A.lam * xs.length)), fun i => ?_, ?_⟩
  · simp [Attributor.score, hnorm, alpha, hlam, hlen]
  · unfold objGrad dot
    simp only []
    generalize (fun i => A.loss.grad xs.length (preact (fun i : Fin xs.length => A.feat xs[i]) θ)
      (fun i => activate (A.out xs[i])) i k) = G at *
    have hsum : ∀ G : Fin xs.length → ℝ, (∑ j, (2 * A.lam * θ (k, j) + ∑ i, G i * A.feat xs[i] j) * A.feat z j) =
        2 * A.lam * (∑ j, θ (k, j) * A.feat z j) + ∑ i, G i * ∑ j, A.feat xs[i] j * A.feat z j := by
      intro G
      simp only [add_mul, Finset.sum_add_distrib, Finset.sum_mul, Finset.mul_sum]
      congr 1
      · exact Finset.sum_congr rfl fun j _ => by ring
      · rw [Finset.sum_comm]
        exact Finset.sum_congr rfl fun i _ => Finset.sum_congr rfl fun j _ => by ring
    rw [hsum]
    have h2 : ∀ (S T : ℝ), (T - (2 * A.lam * T + S) / (2 * A.lam)) / (xs.length : ℝ) = S / (-2 * A.lam * xs.length) := by
      intro S T; field_simp; ring
    rw [h2, Finset.sum_div]
    exact Finset.sum_congr rfl fun i _ => by ring

/-- **C86** (the gradient in the decomposition is the true gradient). If the loss's gradient function is the derivative of its value at the
pre-activations, `objGrad` is the derivative of the fine-tuning objective; hence it vanishes at every local minimum. -/
theorem C86_objGrad_is_gradient {n : ℕ} (L : Loss c) (lam : ℝ) (F : Fin n → Fin p → ℝ) (T : Fin n → Fin c → ℝ) (θ : Theta p c)
    (Lr : (Fin n → Fin c → ℝ) → ℝ) (hval : ∀ φ, L.val n φ T = some (Lr φ))
    (hgrad : HasFDerivAt Lr (∑ i, ∑ k, L.grad n (preact F θ) T i k •
      ((ContinuousLinearMap.proj k : (Fin c → ℝ) →L[ℝ] ℝ).comp (ContinuousLinearMap.proj i : (Fin n → Fin c → ℝ) →L[ℝ] (Fin c → ℝ)))) (preact F θ)) :
    ∃ O : Theta p c → ℝ, (∀ θ', objective L lam F T θ' = some (O θ')) ∧
      HasFDerivAt O (∑ q, objGrad L lam F T θ q • (ContinuousLinearMap.proj q : Theta p c →L[ℝ] ℝ)) θ := by
  refine ⟨fun θ' => Lr (preact F θ') + (∑ q, θ' q ^ 2) * lam, fun θ' => by simp [objective, hval], ?_⟩
  have h1 : HasFDerivAt (fun θ' : Theta p c => (∑ q, θ' q ^ 2) * lam)
      (lam • ∑ q, (2 * θ q) • (ContinuousLinearMap.proj q : Theta p c →L[ℝ] ℝ)) θ := by
    have hs : HasFDerivAt (fun θ' : Theta p c => ∑ q, θ' q ^ 2) (∑ q, (2 * θ q) • (ContinuousLinearMap.proj q : Theta p c →L[ℝ] ℝ)) θ := by
      apply HasFDerivAt.fun_sum
      intro q _
      have := ((ContinuousLinearMap.proj q : Theta p c →L[ℝ] ℝ).hasFDerivAt (x := θ)).pow 2
      simpa using this
    exact hs.mul_const lam
  have hpre : HasFDerivAt (fun θ' : Theta p c => preact F θ')
      (ContinuousLinearMap.pi fun i => ContinuousLinearMap.pi fun k => ∑ j, F i j • (ContinuousLinearMap.proj (k, j) : Theta p c →L[ℝ] ℝ)) θ := by
    rw [hasFDerivAt_pi]
    intro i
    rw [hasFDerivAt_pi]
    intro k
    unfold preact
    apply HasFDerivAt.fun_sum
    intro j _
    exact ((ContinuousLinearMap.proj (k, j) : Theta p c →L[ℝ] ℝ).hasFDerivAt (x := θ)).mul_const (F i j)
  have h2 := hgrad.comp θ hpre
  have h3 := h2.add h1
  refine h3.congr_fderiv (ContinuousLinearMap.ext fun v => ?_)
  simp only [objGrad, add_apply, ContinuousLinearMap.coe_comp, Function.comp_apply, _root_.sum_apply,
    smul_apply, ContinuousLinearMap.coe_pi', ContinuousLinearMap.proj_apply, smul_eq_mul]
  simp only [Fintype.sum_prod_type, add_mul, Finset.sum_add_distrib, Finset.mul_sum, Finset.sum_mul]
  rw [add_comm]
  congr 1
  · exact Finset.sum_congr rfl fun k _ => Finset.sum_congr rfl fun j _ => by ring
  · rw [Finset.sum_comm]
    refine Finset.sum_congr rfl fun k _ => ?_
    rw [Finset.sum_comm]
    exact Finset.sum_congr rfl fun j _ => Finset.sum_congr rfl fun i _ => by ring

/-- **C86** (at an optimum). If the weights are a local minimum of the fine-tuning objective of the attributed data, the scores of a test sample
sum to exactly `1/n` of its pre-activation for the class in question. -/
theorem C86_at_minimum (A : Attributor X p c) (hnorm : A.normalizePre = false) (hlam : A.lam ≠ 0) (θ : Theta p c) (xs : List X)
    (hxs : xs ≠ []) (z : X) (k : Fin c) (Lr : (Fin xs.length → Fin c → ℝ) → ℝ)
    (hval : ∀ φ, A.loss.val xs.length φ (fun i => activate (A.out xs[i])) = some (Lr φ))
    (hgrad : HasFDerivAt Lr (∑ i, ∑ k, A.loss.grad xs.length (preact (fun i : Fin xs.length => A.feat xs[i]) θ) (fun i => activate (A.out xs[i])) i k •
      ((ContinuousLinearMap.proj k : (Fin c → ℝ) →L[ℝ] ℝ).comp (ContinuousLinearMap.proj i : (Fin xs.length → Fin c → ℝ) →L[ℝ] (Fin c → ℝ))))
      (preact (fun i : Fin xs.length => A.feat xs[i]) θ))
    (O : Theta p c → ℝ) (hO : ∀ θ', objective A.loss A.lam (fun i : Fin xs.length => A.feat xs[i]) (fun i => activate (A.out xs[i])) θ' = some (O θ'))
    (hmin : IsLocalMin O θ) :
    ∃ s : Fin xs.length → ℝ, (∀ i, A.score θ xs i z k = some (s i)) ∧ ∑ i, s i = (∑ j, θ (k, j) * A.feat z j) / xs.length := by
  obtain ⟨O', hO', hd⟩ := C86_objGrad_is_gradient A.loss A.lam (fun i : Fin xs.length => A.feat xs[i]) (fun i => activate (A.out xs[i])) θ Lr hval hgrad
  have hOO : O' = O := by
    funext θ'
    have := (hO' θ').symm.trans (hO θ')
    injection this
  subst hOO
  have h0 := hmin.hasFDerivAt_eq_zero hd
  have hz : ∀ q, objGrad A.loss A.lam (fun i : Fin xs.length => A.feat xs[i]) (fun i => activate (A.out xs[i])) θ q = 0 := by
    intro q
    have := congrArg (fun f : Theta p c →L[ℝ] ℝ => f (Pi.single q 1)) h0
    simpa [Pi.single_apply] using this
  obtain ⟨s, h1, h2⟩ := C86_decomposition A hnorm hlam θ xs hxs z k
  refine ⟨s, h1, ?_⟩
  rw [h2]
  simp only [hz, zero_mul, Finset.sum_const_zero, zero_div, sub_zero]

lemma dot_normalize_abs_le (x y : Fin p → ℝ) : |dot (normalize x) (normalize y)| ≤ 1 := by
  have hn : ∀ x : Fin p → ℝ, ∑ j, normalize x j ^ 2 ≤ 1 := by
    intro x
    unfold normalize
    have hpos : 0 < max (Real.sqrt (∑ j, x j ^ 2)) (1 / 10 ^ 12) := lt_max_of_lt_right (by norm_num)
    simp only [div_pow, ← Finset.sum_div]
    rw [div_le_one (by positivity)]
    have h0 : 0 ≤ ∑ j, x j ^ 2 := Finset.sum_nonneg fun _ _ => sq_nonneg _
    calc ∑ j, x j ^ 2 = Real.sqrt (∑ j, x j ^ 2) ^ 2 := (Real.sq_sqrt h0).symm
      _ ≤ _ := pow_le_pow_left₀ (Real.sqrt_nonneg _) (le_max_left _ _) 2
  rw [← sq_le_one_iff_abs_le_one]
  unfold dot
  calc (∑ j, normalize x j * normalize y j) ^ 2 ≤ (∑ j, normalize x j ^ 2) * ∑ j, normalize y j ^ 2 := Finset.sum_mul_sq_le_sq_mul_sq _ _ _
    _ ≤ 1 * 1 := mul_le_mul (hn x) (hn y) (Finset.sum_nonneg fun _ _ => sq_nonneg _) zero_le_one
    _ = 1 := by ring

/-- **C86** (normalised features). With `normalize_preactivate` a score is the representer weight times a number in `[-1, 1]`, so its size is bounded
by the size of the weight whatever the features are. -/
theorem C86_normalized_bound (A : Attributor X p c) (hnorm : A.normalizePre = true) (θ : Theta p c) (xs : List X) (i : Fin xs.length) (z : X)
    (k : Fin c) (s : ℝ) (hs : A.score θ xs i z k = some s) :
    ∃ a, alpha A.loss A.lam (fun i : Fin xs.length => A.feat xs[i]) (fun i => A.out xs[i]) θ i k = some a ∧ |s| ≤ |a| := by
  unfold Attributor.score at hs
  simp only [hnorm, if_true] at hs
  cases ha : alpha A.loss A.lam (fun i : Fin xs.length => A.feat xs[i]) (fun i => A.out xs[i]) θ i k with
  | none => rw [ha] at hs; cases hs
  | some a =>
    rw [ha] at hs
    simp only [Option.map_some, Option.some.injEq] at hs
    refine ⟨a, rfl, ?_⟩
    rw [← hs, abs_mul]
    exact mul_le_of_le_one_left (abs_nonneg _) (dot_normalize_abs_le _ _)

/-- **C86** (the class of a score). The scores are defined exactly if every label is a class or there is only one class; entry `(i, j)` is then
the score of training sample `i` for test sample `j` and the class of its label (the only class, if there is one). Otherwise an `IndexError` is raised. -/
theorem C86_class (A : Attributor X p c) (θ : Theta p c) (xs zs : List X) :
    ((∀ z ∈ zs, c = 1 ∨ A.label z < c) → ∃ M, A.scores θ xs zs = .ok M ∧ M.length = xs.length ∧
      ∀ (i : Fin xs.length) (j : ℕ) (z : X) (k : Fin c), zs[j]? = some z → (k : ℕ) = (if c = 1 then 0 else A.label z) →
        ∃ row, M[(i : ℕ)]? = some row ∧ row.length = zs.length ∧ row[j]? = some (A.score θ xs i z k)) ∧
    ((∃ z ∈ zs, c ≠ 1 ∧ c ≤ A.label z) → A.scores θ xs zs = .error .indexError) := by
  have hcol : ∀ z : X, (c = 1 ∨ A.label z < c) → ∃ k : Fin c, column c (A.label z) = .ok k ∧ (k : ℕ) = if c = 1 then 0 else A.label z := by
    intro z hz
    unfold column
    by_cases h1 : c = 1
    · exact ⟨⟨0, by omega⟩, by rw [dif_pos h1], by simp [h1]⟩
    · have h2 : A.label z < c := hz.resolve_left h1
      exact ⟨⟨A.label z, h2⟩, by rw [dif_neg h1, dif_pos h2], by simp [h1]⟩
  constructor
  · intro h
    have hks : ∀ zs : List X, (∀ z ∈ zs, c = 1 ∨ A.label z < c) → ∃ ks : List (X × Fin c),
        (zs.mapM fun z => (column c (A.label z)).map fun k => (z, k)) = .ok ks ∧ ks.length = zs.length ∧
        ∀ (j : ℕ) z, zs[j]? = some z → ∃ k : Fin c, ks[j]? = some (z, k) ∧ (k : ℕ) = if c = 1 then 0 else A.label z := by
      intro zs
      induction zs with
      | nil => intro _; exact ⟨[], rfl, rfl, fun j z hz => by simp at hz⟩
      | cons z zs ih =>
        intro h
        obtain ⟨ks, e1, e2, e3⟩ := ih fun x hx => h x (List.mem_cons_of_mem _ hx)
        obtain ⟨k, hk, hk'⟩ := hcol z (h z (by simp))
        refine ⟨(z, k) :: ks, ?_, by simp [e2], ?_⟩
        · rw [List.mapM_cons, hk, e1]; rfl
        · intro j z' hz'
          cases j with
          | zero => simp only [List.getElem?_cons_zero, Option.some.injEq] at hz'; subst hz'; exact ⟨k, rfl, hk'⟩
          | succ j => exact e3 j z' (by simpa using hz')
    obtain ⟨ks, e1, e2, e3⟩ := hks zs h
    refine ⟨(List.finRange xs.length).map fun i => ks.map fun zk => A.score θ xs i zk.1 zk.2, ?_, by simp, ?_⟩
    · unfold Attributor.scores
      rw [e1]; rfl
    · intro i j z k hz hk
      obtain ⟨k', h1, h2⟩ := e3 j z hz
      have : k' = k := Fin.ext (h2.trans hk.symm)
      subst this
      refine ⟨ks.map fun zk => A.score θ xs i zk.1 zk.2, ?_, by simp [e2], ?_⟩
      · rw [List.getElem?_map, List.getElem?_eq_getElem (by simp)]
        simp
      · rw [List.getElem?_map, h1]; rfl
  · rintro ⟨z, hz, h1, h2⟩
    have hfail : ∀ zs : List X, z ∈ zs → (zs.mapM fun z => (column c (A.label z)).map fun k => (z, k)) = .error .indexError := by
      intro zs
      induction zs with
      | nil => intro h; cases h
      | cons y ys ih =>
        intro hm
        rw [List.mapM_cons]
        by_cases hy : c = 1 ∨ A.label y < c
        · obtain ⟨k, hk, _⟩ := hcol y hy
          have hne : z ≠ y := by rintro rfl; omega
          rw [hk, ih (List.mem_of_ne_of_mem hne hm)]; rfl
        · have : column c (A.label y) = .error .indexError := by
            unfold column
            rw [dif_neg (fun h => hy (Or.inl h)), dif_neg (fun h => hy (Or.inr h))]
          rw [this]; rfl
    unfold Attributor.scores
    rw [hfail zs hz]; rfl

/-! ## C87: which weights are used -/

lemma finish_state (A : Attributor X p c) (s : St p c) (xs : List X) (te : List (List X)) : (A.finish s xs te).1 = s := by
  unfold Attributor.finish
  cases layerIO te with
  | error e => rfl
  | ok zs =>
    cases s.theta <;> rfl

lemma attribute_cached (A : Attributor X p c) (s : St p c) (tr te : List (List X)) : (A.attribute' s tr te).1.cached = s.cached := by
  unfold Attributor.attribute'
  cases layerIO tr with
  | error e => rfl
  | ok xs =>
    simp only []
    split_ifs
    · rw [finish_state]
    · cases A.tune xs with
      | error e => rfl
      | ok θ => rw [finish_state]

lemma attribute_state_cached (A : Attributor X p c) (s : St p c) (hs : s.cached = true) (tr te : List (List X)) : (A.attribute' s tr te).1 = s := by
  unfold Attributor.attribute'
  cases layerIO tr with
  | error e => rfl
  | ok xs => simp only [hs, if_true, finish_state]

lemma cache_cached (A : Attributor X p c) (s : St p c) (full : List (List X)) : (A.cache s full).1.cached = true := by
  unfold Attributor.cache
  cases layerIO full >>= A.tune <;> rfl

lemma run_not_cached (A : Attributor X p c) (h : List (Op X)) (hn : ∀ op ∈ h, ∀ full, op ≠ .cache full) (s : St p c) :
    (A.run s h).cached = s.cached := by
  induction h generalizing s with
  | nil => rfl
  | cons op h ih =>
    show (A.run (A.step s op) h).cached = _
    rw [ih (fun o ho => hn o (by simp [ho]))]
    cases op with
    | cache full => exact absurd rfl (hn _ (by simp) full)
    | attribute' tr te => exact attribute_cached A s tr te

lemma run_cached (A : Attributor X p c) (h : List (Op X)) (hn : ∀ op ∈ h, ∀ full, op ≠ .cache full) (s : St p c) (hs : s.cached = true) :
    A.run s h = s := by
  induction h generalizing s with
  | nil => rfl
  | cons op h ih =>
    show A.run (A.step s op) h = _
    have : A.step s op = s := by
      cases op with
      | cache full => exact absurd rfl (hn _ (by simp) full)
      | attribute' tr te => exact attribute_state_cached A s hs tr te
    rw [this]
    exact ih (fun o ho => hn o (by simp [ho])) s hs

/-- The outcome of attributing training batches `tr` to test batches `te` with the weights `w` (or the failure to obtain them). -/
noncomputable def Outcome (A : Attributor X p c) (w : List X → Except Err (Theta p c)) (tr te : List (List X)) : Except Err (List (List (Option ℝ))) :=
  if tr = [] then .error .runtimeError
  else match w tr.flatten with
    | .error e => .error e
    | .ok θ => if te = [] then .error .runtimeError else A.scores θ tr.flatten te.flatten

/-- **C87.** Without any earlier `cache` call, `attribute` uses weights fine-tuned on its own training data, whatever was attributed before; after
`cache` succeeded, every later `attribute` uses the weights fine-tuned on the cached data until `cache` is called again; only the sequence of
samples matters, not the batching. -/
theorem C87_weights (A : Attributor X p c) (h1 h2 : List (Op X)) (hn : ∀ op ∈ h2, ∀ full, op ≠ .cache full) (tr te : List (List X)) :
    (A.attribute' (A.run St.init h2) tr te).2 = Outcome A A.tune tr te ∧
    ∀ full θ, full ≠ [] → A.tune full.flatten = .ok θ →
      (A.attribute' (A.run St.init (h1 ++ .cache full :: h2)) tr te).2 = Outcome A (fun _ => .ok θ) tr te := by
  constructor
  · have hc : (A.run St.init h2).cached = false := run_not_cached A h2 hn St.init
    generalize A.run (St.init : St p c) h2 = s at *
    unfold Attributor.attribute' Outcome
    by_cases ht : tr = []
    · simp [ht, layerIO]
    · simp only [layerIO, ht, if_false, hc, Bool.false_eq_true]
      cases A.tune tr.flatten with
      | error e => rfl
      | ok θ =>
        simp only [Attributor.finish, layerIO]
        by_cases he : te = []
        · simp [he]
        · simp [he]
  · intro full θ hf hθ
    have hst : A.run (St.init : St p c) (h1 ++ .cache full :: h2) = ⟨true, some θ⟩ := by
      have : A.run (St.init : St p c) (h1 ++ .cache full :: h2) = A.run (A.step (A.run St.init h1) (.cache full)) h2 := by
        simp [Attributor.run]
      rw [this]
      have h3 : A.step (A.run St.init h1) (.cache full) = ⟨true, some θ⟩ := by
        simp [Attributor.step, Attributor.cache, layerIO, hf, bind, Except.bind, hθ]
      rw [h3]
      exact run_cached A h2 hn _ rfl
    rw [hst]
    unfold Attributor.attribute' Outcome
    by_cases ht : tr = []
    · simp [ht, layerIO]
    · simp only [layerIO, ht, if_false, if_true, Attributor.finish]
      by_cases he : te = []
      · simp [he]
      · simp [he]

/-- **C87** (failed caching). When `cache` fails, later `attribute` calls no longer fine-tune: they silently use the weights left by an earlier
successful call, or raise `AttributeError` if there are none. -/
theorem C87_failed_cache (A : Attributor X p c) (h1 h2 : List (Op X)) (hn : ∀ op ∈ h2, ∀ full, op ≠ .cache full) (tr te : List (List X))
    (htr : tr ≠ []) (hte : te ≠ []) (full : List (List X)) (e : Err) (he : (A.cache (A.run St.init h1) full).2 = .error e) :
    (A.attribute' (A.run St.init (h1 ++ .cache full :: h2)) tr te).2 =
      match (A.run St.init h1).theta with
      | none => .error .attributeError
      | some θ => A.scores θ tr.flatten te.flatten := by
  have hst : A.run (St.init : St p c) (h1 ++ .cache full :: h2) = { A.run (St.init : St p c) h1 with cached := true } := by
    have : A.run (St.init : St p c) (h1 ++ .cache full :: h2) = A.run (A.step (A.run St.init h1) (.cache full)) h2 := by
      simp [Attributor.run]
    rw [this]
    have h3 : A.step (A.run St.init h1) (.cache full) = { A.run (St.init : St p c) h1 with cached := true } := by
      simp only [Attributor.step]
      unfold Attributor.cache at he ⊢
      cases hb : layerIO full >>= A.tune with
      | error e' => rfl
      | ok θ => rw [hb] at he; cases he
    rw [h3]
    exact run_cached A h2 hn _ rfl
  rw [hst]
  unfold Attributor.attribute'
  simp only [layerIO, htr, if_false, if_true, Attributor.finish, hte]
  cases (A.run (St.init : St p c) h1).theta <;> rfl

/-- A concrete attributor: one feature, one output, squared loss, two samples. -/
noncomputable def exA : Attributor Bool 1 1 where
  feat := fun b _ => if b then 1 else 2
  out := fun _ _ => 0
  label := fun _ => 0
  weight := fun _ => 1
  loss := ⟨fun _ φ Y => some (∑ i, (φ i 0 - Y i 0) ^ 2), fun _ φ Y i k => 2 * (φ i k - Y i k)⟩
  normalizePre := false
  lam := 1 / 2
  epochs := 0

/-- With zero epochs caching fails, and `C87_failed_cache` applies. -/
example : (exA.cache St.init [[true, false]]).2 = .error .unboundLocalError ∧
    (exA.attribute' (exA.run St.init [.cache [[true, false]]]) [[true]] [[false]]).2 = .error .attributeError := by
  have h : (exA.cache St.init [[true, false]]).2 = .error .unboundLocalError := by
    simp [Attributor.cache, layerIO, Attributor.tune, finetuneTheta, finetune, ftLoop, exA, bind, Except.bind]
  exact ⟨h, C87_failed_cache exA [] [] (by simp) [[true]] [[false]] (by simp) (by simp) [[true, false]] _ h⟩

/-- `C86_decomposition` for two training samples. -/
example : ∃ s : Fin 2 → ℝ, (∀ i, exA.score (fun _ => 3) [true, false] i true 0 = some (s i)) :=
  (C86_decomposition exA rfl (by norm_num [exA]) (fun _ => 3) [true, false] (by simp) true 0).imp fun _ h => h.1

end Verif.RPS
