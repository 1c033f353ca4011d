import Verif.Bench.LogRegProps
import Verif.Attr.CGAttrProps
import Verif.Hessian.LissaRateProps
import Mathlib.Analysis.SpecialFunctions.Log.Deriv
import Mathlib.Data.List.Induction

/-!
# C177: the iterative solvers on the logistic regression benchmark

The Hessian of the benchmark's loss in every direction, an explicit bound for it, and what it means for conjugate gradient and LiSSA.
-/

namespace Verif.LogReg

open Matrix Topology Filter

variable {n c : ℕ}

/-! ### Specification -/

/-- The model's probability of class `k` for the input `x`. -/
noncomputable def classProb (θ : Fin (c * n + c) → ℝ) (x : Fin n → ℝ) (k : Fin c) : ℝ :=
  Real.exp (logits θ x k) / ∑ u, Real.exp (logits θ x u)

/-- The variance of the numbers `w` under the model's probabilities for `x`. -/
noncomputable def classVar (θ : Fin (c * n + c) → ℝ) (x : Fin n → ℝ) (w : Fin c → ℝ) : ℝ :=
  ∑ k, classProb θ x k * w k ^ 2 - (∑ k, classProb θ x k * w k) ^ 2

/-- The samples of a data set at these positions. -/
def pick {X : Type} (data : List X) (idx : List ℕ) : List X := idx.filterMap fun i : ℕ => data[i]?

/-! ### Helper lemmas -/

/-- Second derivatives along a line. -/
theorem hess_line {p : ℕ} {f : (Fin p → ℝ) → ℝ} (hf : ContDiff ℝ 2 f) (θ v : Fin p → ℝ) (g : ℝ → ℝ) (h : ℝ)
    (hg : ∀ s, HasDerivAt (fun s : ℝ => f (θ + s • v)) (g s) s) (hh : HasDerivAt g h 0) : v ⬝ᵥ Attr.hessAt f θ *ᵥ v = h := by
  have hl : ∀ s : ℝ, HasDerivAt (fun s : ℝ => θ + s • v) v s := by
    intro s
    have := ((hasDerivAt_id s).smul_const v).const_add θ
    simpa using this
  have hd : ∀ s : ℝ, HasDerivAt (fun s : ℝ => f (θ + s • v)) (Attr.gradAt f (θ + s • v) ⬝ᵥ v) s := by
    intro s
    have := ((hf.differentiable (by norm_num) (θ + s • v)).hasFDerivAt).comp_hasDerivAt s (hl s)
    rw [Attr.fderiv_eq_dot] at this
    exact this
  have h2 : HasDerivAt (fun s : ℝ => Attr.gradAt f (θ + s • v) ⬝ᵥ v) ((Attr.hessAt f θ *ᵥ v) ⬝ᵥ v) 0 := by
    have hg := (Attr.gradAt_strict (hf.contDiffAt (x := θ + (0 : ℝ) • v))).hasFDerivAt.comp_hasDerivAt 0 (hl 0)
    rw [Attr.fderiv_gradAt hf.contDiffAt] at hg
    have e0 : θ + (0 : ℝ) • v = θ := by simp
    rw [e0] at hg
    rw [hasDerivAt_pi] at hg
    have := HasDerivAt.fun_sum (u := Finset.univ) fun k _ => (hg k).mul_const (v k)
    exact this
  have e : (fun s : ℝ => Attr.gradAt f (θ + s • v) ⬝ᵥ v) = g := funext fun s => (hd s).unique (hg s)
  rw [e] at h2
  rw [dotProduct_comm]
  exact h2.unique hh

theorem logits_line (x : Fin n → ℝ) (s : ℝ) (θ v : Fin (c * n + c) → ℝ) (k : Fin c) :
    logits (θ + s • v) x k = logits θ x k + s * logits v x k := by
  have := logits_comb x 1 s θ v k
  rwa [one_smul, one_mul] at this

/-- The derivative of a sample's loss along a line, at every point. -/
theorem sample_deriv (θ v : Fin (c * n + c) → ℝ) (x : Sample n c) (s : ℝ) :
    HasDerivAt (fun s : ℝ => sampleLoss (θ + s • v) x)
      ((∑ k, logits v x.1 k * Real.exp (logits θ x.1 k + s * logits v x.1 k)) / (∑ k, Real.exp (logits θ x.1 k + s * logits v x.1 k)) - logits v x.1 x.2) s := by
  have hk : ∀ k, HasDerivAt (fun s : ℝ => logits θ x.1 k + s * logits v x.1 k) (logits v x.1 k) s := by
    intro k
    have := ((hasDerivAt_id s).mul_const (logits v x.1 k)).const_add (logits θ x.1 k)
    simpa using this
  have hS : HasDerivAt (fun s : ℝ => ∑ k, Real.exp (logits θ x.1 k + s * logits v x.1 k))
      (∑ k, Real.exp (logits θ x.1 k + s * logits v x.1 k) * logits v x.1 k) s :=
    HasDerivAt.fun_sum fun k _ => (hk k).exp
  have hpos := sum_exp_pos (fun k => logits θ x.1 k + s * logits v x.1 k) x.2
  have h := ((hk x.2).fun_sub (hS.log hpos.ne')).fun_neg
  have e : (fun s : ℝ => sampleLoss (θ + s • v) x) = fun s : ℝ => -(logits θ x.1 x.2 + s * logits v x.1 x.2 -
      Real.log (∑ k, Real.exp (logits θ x.1 k + s * logits v x.1 k))) := by
    funext s
    unfold sampleLoss logSoftmax
    simp only [logits_line]
  rw [e]
  refine h.congr_deriv ?_
  rw [neg_sub]
  simp only [mul_comm]

/-- Its derivative at the point itself. -/
theorem sample_deriv2 (θ v : Fin (c * n + c) → ℝ) (x : Sample n c) :
    HasDerivAt (fun s : ℝ => (∑ k, logits v x.1 k * Real.exp (logits θ x.1 k + s * logits v x.1 k)) /
      (∑ k, Real.exp (logits θ x.1 k + s * logits v x.1 k)) - logits v x.1 x.2) (classVar θ x.1 (logits v x.1)) 0 := by
  have hk : ∀ k, HasDerivAt (fun s : ℝ => Real.exp (logits θ x.1 k + s * logits v x.1 k)) (Real.exp (logits θ x.1 k) * logits v x.1 k) 0 := by
    intro k
    have := (((hasDerivAt_id (0 : ℝ)).mul_const (logits v x.1 k)).const_add (logits θ x.1 k)).exp
    simpa using this
  have hS : HasDerivAt (fun s : ℝ => ∑ k, Real.exp (logits θ x.1 k + s * logits v x.1 k))
      (∑ k, Real.exp (logits θ x.1 k) * logits v x.1 k) 0 := HasDerivAt.fun_sum fun k _ => hk k
  have hN : HasDerivAt (fun s : ℝ => ∑ k, logits v x.1 k * Real.exp (logits θ x.1 k + s * logits v x.1 k))
      (∑ k, logits v x.1 k * (Real.exp (logits θ x.1 k) * logits v x.1 k)) 0 := HasDerivAt.fun_sum fun k _ => (hk k).const_mul _
  have hpos := sum_exp_pos (logits θ x.1) x.2
  have hne : (∑ k, Real.exp (logits θ x.1 k + 0 * logits v x.1 k)) ≠ 0 := by simpa using hpos.ne'
  refine ((hN.fun_div hS hne).sub_const (logits v x.1 x.2)).congr_deriv ?_
  simp only [zero_mul, add_zero]
  have e1 : ∑ k, classProb θ x.1 k * logits v x.1 k ^ 2 =
      (∑ k, logits v x.1 k * (Real.exp (logits θ x.1 k) * logits v x.1 k)) / ∑ u, Real.exp (logits θ x.1 u) := by
    rw [Finset.sum_div]
    refine Finset.sum_congr rfl fun k _ => ?_
    unfold classProb
    ring
  have e2 : ∑ k, classProb θ x.1 k * logits v x.1 k = (∑ k, Real.exp (logits θ x.1 k) * logits v x.1 k) / ∑ u, Real.exp (logits θ x.1 u) := by
    rw [Finset.sum_div]
    refine Finset.sum_congr rfl fun k _ => ?_
    unfold classProb
    ring
  have e3 : ∑ k, logits v x.1 k * Real.exp (logits θ x.1 k) = ∑ k, Real.exp (logits θ x.1 k) * logits v x.1 k :=
    Finset.sum_congr rfl fun k _ => mul_comm _ _
  unfold classVar
  rw [e1, e2, e3]
  field_simp

theorem hasDerivAt_listSum {X : Type} (l : List X) (F F' : X → ℝ → ℝ) (s : ℝ) (h : ∀ x ∈ l, HasDerivAt (F x) (F' x s) s) :
    HasDerivAt (fun s => (l.map fun x => F x s).sum) ((l.map fun x => F' x s).sum) s := by
  induction l with
  | nil => simpa using hasDerivAt_const s (0 : ℝ)
  | cons a l ih =>
    simp only [List.map_cons, List.sum_cons]
    exact (h a List.mem_cons_self).fun_add (ih fun x hx => h x (List.mem_cons_of_mem _ hx))

theorem prob_sum (θ : Fin (c * n + c) → ℝ) (x : Fin n → ℝ) (k : Fin c) : ∑ u, classProb θ x u = 1 := by
  unfold classProb
  rw [← Finset.sum_div, div_self (sum_exp_pos _ k).ne']

theorem prob_nonneg (θ : Fin (c * n + c) → ℝ) (x : Fin n → ℝ) (k : Fin c) : 0 ≤ classProb θ x k :=
  div_nonneg (Real.exp_pos _).le (Finset.sum_nonneg fun _ _ => (Real.exp_pos _).le)

/-- A variance is at most half the sum of the squares. -/
theorem var_le (p w : Fin c → ℝ) (hp : ∀ k, 0 ≤ p k) (h1 : ∑ k, p k = 1) :
    ∑ k, p k * w k ^ 2 - (∑ k, p k * w k) ^ 2 ≤ (∑ k, w k ^ 2) / 2 := by
  have hall : ∑ j, ∑ k, p j * p k * (w j + w k) ^ 2 = 2 * ∑ k, p k * w k ^ 2 + 2 * (∑ k, p k * w k) ^ 2 := by
    have e : ∀ j k, p j * p k * (w j + w k) ^ 2 = (p j * w j ^ 2) * p k + 2 * ((p j * w j) * (p k * w k)) + p j * (p k * w k ^ 2) := by
      intro j k; ring
    simp only [e, Finset.sum_add_distrib, ← Finset.mul_sum, h1, mul_one, ← Finset.sum_mul, one_mul]
    ring
  have hdiag : ∑ j, p j * p j * (w j + w j) ^ 2 ≤ ∑ j, ∑ k, p j * p k * (w j + w k) ^ 2 := by
    refine Finset.sum_le_sum fun j _ => ?_
    exact Finset.single_le_sum (f := fun k => p j * p k * (w j + w k) ^ 2)
      (fun k _ => mul_nonneg (mul_nonneg (hp j) (hp k)) (sq_nonneg _)) (Finset.mem_univ j)
  have e4 : ∑ j, p j * p j * (w j + w j) ^ 2 = 4 * ∑ j, p j ^ 2 * w j ^ 2 := by
    rw [Finset.mul_sum]
    exact Finset.sum_congr rfl fun j _ => by ring
  have hq : 2 * ∑ k, p k * w k ^ 2 - 2 * ∑ j, p j ^ 2 * w j ^ 2 ≤ (∑ k, w k ^ 2) / 2 := by
    rw [← mul_sub, ← Finset.sum_sub_distrib, Finset.mul_sum, Finset.sum_div]
    refine Finset.sum_le_sum fun k _ => ?_
    have : 0 ≤ (2 * p k - 1) ^ 2 * w k ^ 2 := mul_nonneg (sq_nonneg _) (sq_nonneg _)
    nlinarith
  linarith

theorem var_nonneg (p w : Fin c → ℝ) (hp : ∀ k, 0 ≤ p k) (h1 : ∑ k, p k = 1) :
    0 ≤ ∑ k, p k * w k ^ 2 - (∑ k, p k * w k) ^ 2 := by
  have : 0 ≤ ∑ k, p k * (w k - ∑ j, p j * w j) ^ 2 := Finset.sum_nonneg fun k _ => mul_nonneg (hp k) (sq_nonneg _)
  have e : ∑ k, p k * (w k - ∑ j, p j * w j) ^ 2 = ∑ k, p k * w k ^ 2 - (∑ k, p k * w k) ^ 2 := by
    generalize hm : ∑ j, p j * w j = m
    have : ∀ k, p k * (w k - m) ^ 2 = p k * w k ^ 2 - 2 * m * (p k * w k) + m ^ 2 * p k := fun k => by ring
    simp only [this, Finset.sum_add_distrib, Finset.sum_sub_distrib, ← Finset.mul_sum, hm, h1]
    ring
  rwa [e] at this

/-- The outputs of a parameter vector are bounded by its length. -/
theorem logits_sq (u : Fin (c * n + c) → ℝ) (x : Fin n → ℝ) : ∑ k, logits u x k ^ 2 ≤ (∑ j, x j ^ 2 + 1) * (u ⬝ᵥ u) := by
  have hk : ∀ k : Fin c, logits u x k ^ 2 ≤
      (∑ j, u (Fin.castAdd c (finProdFinEquiv (k, j))) ^ 2 + u (Fin.natAdd (c * n) k) ^ 2) * (∑ j, x j ^ 2 + 1) := by
    intro k
    unfold logits
    have cs := Finset.sum_mul_sq_le_sq_mul_sq Finset.univ (fun j => u (Fin.castAdd c (finProdFinEquiv (k, j)))) x
    set a := ∑ j, u (Fin.castAdd c (finProdFinEquiv (k, j))) * x j
    set A := ∑ j, u (Fin.castAdd c (finProdFinEquiv (k, j))) ^ 2 with hA
    set X := ∑ j, x j ^ 2 with hX
    set b := u (Fin.natAdd (c * n) k)
    have hA0 : 0 ≤ A := Finset.sum_nonneg fun _ _ => sq_nonneg _
    have hX0 : 0 ≤ X := Finset.sum_nonneg fun _ _ => sq_nonneg _
    -- `2 a b ≤ A + b² X`
    have h2 : 2 * a * b ≤ A + b ^ 2 * X := by
      have h3 : a ≤ √A * √X := by
        rw [← Real.sqrt_mul hA0]; exact Real.le_sqrt_of_sq_le cs
      have h3' : -(√A * √X) ≤ a := by
        rw [← Real.sqrt_mul hA0]; exact neg_le_of_neg_le (Real.le_sqrt_of_sq_le (by simpa using cs))
      have h4 : a * b ≤ √A * √X * |b| := by
        calc a * b ≤ |a * b| := le_abs_self _
          _ = |a| * |b| := abs_mul _ _
          _ ≤ √A * √X * |b| := mul_le_mul_of_nonneg_right (abs_le.2 ⟨h3', h3⟩) (abs_nonneg _)
      have h5 := sq_nonneg (√A - √X * |b|)
      have e : (√A - √X * |b|) ^ 2 = A - 2 * (√A * √X * |b|) + X * b ^ 2 := by
        rw [sub_sq, mul_pow, Real.sq_sqrt hA0, Real.sq_sqrt hX0, sq_abs]; ring
      linarith
    nlinarith
  refine (Finset.sum_le_sum fun k _ => hk k).trans (le_of_eq ?_)
  rw [← Finset.sum_mul, mul_comm]
  congr 1
  unfold dotProduct
  rw [Fin.sum_univ_add, Finset.sum_add_distrib, ← finProdFinEquiv.sum_comp, Fintype.sum_prod_type]
  simp only [pow_two]

/-! ### C177 -/

/-- **C177** (the Hessian). In the direction `u` the Hessian of a batch's loss is the mean over the batch of the variance, under the model's class
probabilities, of the outputs of a model with parameters `u`. -/
theorem C177_hessian (θ u : Fin (c * n + c) → ℝ) (b : List (Sample n c)) :
    u ⬝ᵥ Attr.hessAt (fun t => batchLoss t b) θ *ᵥ u = (b.map fun x => classVar θ x.1 (logits u x.1)).sum / b.length := by
  refine hess_line (convexMean.loss_smooth b) θ u (fun s => (b.map fun x =>
    (∑ k, logits u x.1 k * Real.exp (logits θ x.1 k + s * logits u x.1 k)) / (∑ k, Real.exp (logits θ x.1 k + s * logits u x.1 k)) - logits u x.1 x.2).sum /
      b.length) _ (fun s => ?_) ?_
  · exact (hasDerivAt_listSum b (fun x s => sampleLoss (θ + s • u) x) (fun x s =>
      (∑ k, logits u x.1 k * Real.exp (logits θ x.1 k + s * logits u x.1 k)) / (∑ k, Real.exp (logits θ x.1 k + s * logits u x.1 k)) - logits u x.1 x.2) s
      fun x _ => sample_deriv θ u x s).div_const _
  · exact (hasDerivAt_listSum b (fun x s =>
      (∑ k, logits u x.1 k * Real.exp (logits θ x.1 k + s * logits u x.1 k)) / (∑ k, Real.exp (logits θ x.1 k + s * logits u x.1 k)) - logits u x.1 x.2)
      (fun x _ => classVar θ x.1 (logits u x.1)) 0 fun x _ => sample_deriv2 θ u x).div_const _

/-- **C177** (the bound). Its eigenvalues lie between 0 and half the largest squared length of an input, a one for the bias added, at every checkpoint. -/
theorem C177_bounds (θ : Fin (c * n + c) → ℝ) (b : List (Sample n c)) (B : ℝ) (hB0 : 0 ≤ B) (hB : ∀ x ∈ b, ∑ j, x.1 j ^ 2 + 1 ≤ B) (u : Fin (c * n + c) → ℝ) :
    0 ≤ u ⬝ᵥ Attr.hessAt (fun t => batchLoss t b) θ *ᵥ u ∧ u ⬝ᵥ Attr.hessAt (fun t => batchLoss t b) θ *ᵥ u ≤ B / 2 * (u ⬝ᵥ u) := by
  rw [C177_hessian]
  have huu : 0 ≤ u ⬝ᵥ u := Finset.sum_nonneg fun _ _ => mul_self_nonneg _
  constructor
  · refine div_nonneg (List.sum_nonneg fun y hy => ?_) (Nat.cast_nonneg _)
    obtain ⟨x, -, rfl⟩ := List.mem_map.1 hy
    exact var_nonneg _ _ (prob_nonneg θ x.1) (prob_sum θ x.1 x.2)
  · cases b with
    | nil => simpa using mul_nonneg (by linarith : (0 : ℝ) ≤ B / 2) huu
    | cons a l =>
      rw [div_le_iff₀ (by simp; positivity)]
      have h1 : ∀ y ∈ (a :: l).map fun x => classVar θ x.1 (logits u x.1), y ≤ B / 2 * (u ⬝ᵥ u) := by
        intro y hy
        obtain ⟨x, hx, rfl⟩ := List.mem_map.1 hy
        have h2 := var_le _ (logits u x.1) (prob_nonneg θ x.1) (prob_sum θ x.1 x.2)
        have h3 := logits_sq u x.1
        have h4 := mul_le_mul_of_nonneg_right (hB x hx) huu
        unfold classVar
        linarith
      have := List.sum_le_card_nsmul _ _ h1
      rw [List.length_map, nsmul_eq_mul] at this
      linarith

/-- **C177** (conjugate gradient). With inputs of squared length at most `B - 1` and a positive regularisation, each finite score of the
conjugate-gradient attributor after `m` iterations differs from the explicit attributor's by at most the bound with `L = B / 2`. -/
theorem C177_cg (target : (Fin (c * n + c) → ℝ) → Sample n c → ℝ) (reg : ℝ) (hr : 0 < reg) (B : ℝ) (hB0 : 0 ≤ B) (m : ℕ) (tol : ℝ)
    (ckpts : List (Fin (c * n + c) → ℝ)) (full tr te : Loader (Sample n c)) (h1 : 0 < tr.bs) (h2 : 0 < te.bs) (s1 : tr.supported = true)
    (s2 : te.supported = true) (s3 : full.supported = true) (hB : ∀ x ∈ full.data, ∑ j, x.1 j ^ 2 + 1 ≤ B)
    (hfin : ∀ θ ∈ ckpts, ∀ y ∈ te.data, ∃ w, Attr.cgTransTest (fun θ b => Attr.hessAt (fun t => batchLoss t b) θ) m tol reg θ full
      (Attr.gradAt (fun t => target t y) θ) = .ok (some w)) :
    ∃ M M', (Attr.attribute' (Attr.cgTaskSub batchLoss target m tol reg) ckpts (some full) none tr te).2 = .ok M ∧
      (Attr.attribute' (Attr.taskSub batchLoss target reg) ckpts (some full) none tr te).2 = .ok M' ∧
      ∀ i (hi : i < tr.data.length) j (hj : j < te.data.length), |M.f i j - M'.f i j| ≤
        (ckpts.map fun θ => full.nb * (2 * ((√(B / 2 + reg) - √reg) / (√(B / 2 + reg) + √reg)) ^ m * √((B / 2 + reg) / reg * (1 + 1 / reg ^ 2)) *
          (√(Attr.gradAt (fun t => batchLoss t [tr.data[i]]) θ ⬝ᵥ Attr.gradAt (fun t => batchLoss t [tr.data[i]]) θ) *
            √(Attr.gradAt (fun t => target t te.data[j]) θ ⬝ᵥ Attr.gradAt (fun t => target t te.data[j]) θ)))).sum / ckpts.length := by
  refine Attr.C156_against_explicit convexMean target reg hr (B / 2) (by linarith) m tol ckpts full tr te h1 h2 s1 s2 s3 (fun θ _ b _ u => ?_) hfin
  refine (C177_bounds θ _ B hB0 (fun x hx => hB x ?_) u).2
  unfold Loader.batch batchAt at hx
  exact List.mem_of_mem_drop (List.mem_of_mem_take hx)

theorem pick_range {X : Type} (data : List X) : (List.range data.length).filterMap (fun i : ℕ => data[i]?) = data := by
  induction data using List.reverseRecOn with
  | nil => rfl
  | append_singleton l a ih =>
    rw [List.length_append, List.length_singleton, List.range_succ, List.filterMap_append]
    have e : (List.range l.length).filterMap (fun i : ℕ => (l ++ [a])[i]?) = (List.range l.length).filterMap (fun i : ℕ => l[i]?) :=
      List.filterMap_congr fun i hi => List.getElem?_append_left (List.mem_range.1 hi)
    rw [e, ih]
    simp

theorem pick_perm {X : Type} (data : List X) (idx : List ℕ) (h : idx.Perm (List.range data.length)) : (pick data idx).Perm data := by
  have := h.filterMap fun i : ℕ => data[i]?
  rwa [pick_range] at this

theorem batchLoss_perm {b b' : List (Sample n c)} (h : b.Perm b') (θ : Fin (c * n + c) → ℝ) : batchLoss θ b = batchLoss θ b' := by
  unfold batchLoss
  rw [(h.map _).sum_eq, h.length_eq]

/-- **C177** (LiSSA). With damping `d` in (0, 1) and a scaling of at least `B / (4 (1 - d))`, `B - 1` bounding the squared lengths of the inputs: every
execution, whatever it draws, is finite with length at most `|v| / (scaling * d)`; and with batches of the whole data set the result converges to the
solution of `(H + scaling * d) l = v` as the depth grows. -/
theorem C177_lissa (data : List (Sample n c)) (θ : Fin (c * n + c) → ℝ) (B : ℝ) (hB0 : 0 ≤ B) (hB : ∀ x ∈ data, ∑ j, x.1 j ^ 2 + 1 ≤ B) (d s : ℝ)
    (hd : 0 < d) (hd1 : d < 1) (hs : 0 < s) (hsB : B ≤ 4 * s * (1 - d)) (rep : ℕ) (hrep : 0 < rep) (v : Fin (c * n + c) → ℝ) :
    (∀ (perm : ℕ → ℕ → List ℕ) (bs T : ℕ), ∃ x,
      Hessian.ihvpLissa (fun idx => Attr.hessAt (fun t => batchLoss t (pick data idx)) θ) perm bs rep T d s v = .ok (some x) ∧
        √(x ⬝ᵥ x) ≤ √(v ⬝ᵥ v) / (s * d)) ∧
    (∀ (perm : ℕ → ℕ → List ℕ) (bs : ℕ), data.length ≤ bs → (∀ r t, (perm r t).Perm (List.range data.length)) →
      ∃ (x : ℕ → Fin (c * n + c) → ℝ) (l : Fin (c * n + c) → ℝ),
        (∀ T, Hessian.ihvpLissa (fun idx => Attr.hessAt (fun t => batchLoss t (pick data idx)) θ) perm bs rep T d s v = .ok (some (x T))) ∧
        Tendsto x atTop (𝓝 l) ∧ (Attr.hessAt (fun t => batchLoss t data) θ + (s * d) • 1) *ᵥ l = v) := by
  have hsym : ∀ b : List (Sample n c), (Attr.hessAt (fun t => batchLoss t b) θ)ᵀ = Attr.hessAt (fun t => batchLoss t b) θ := fun b =>
    Attr.hessAt_symm (convexMean.loss_smooth b).contDiffAt
  have hpick : ∀ idx, ∀ x ∈ pick data idx, ∑ j, x.1 j ^ 2 + 1 ≤ B := by
    intro idx x hx
    obtain ⟨i, -, hi⟩ := List.mem_filterMap.1 hx
    exact hB x (List.mem_of_getElem? hi)
  have huu : ∀ u : Fin (c * n + c) → ℝ, 0 ≤ u ⬝ᵥ u := fun u => Finset.sum_nonneg fun _ _ => mul_self_nonneg _
  constructor
  · intro perm bs T
    refine Hessian.C161_bounded _ (fun b => hsym _) d s hs hd hd1.le (fun b u => (C177_bounds θ _ B hB0 (hpick b) u).1) (fun b u => ?_) perm bs rep T hrep v
    have h := (C177_bounds θ _ B hB0 (hpick b) u).2
    have := mul_le_mul_of_nonneg_right hsB (huu u)
    linarith
  · intro perm bs hbs hperm
    have hH : ∀ r t, (fun idx => Attr.hessAt (fun t => batchLoss t (pick data idx)) θ) (Hessian.sampleBatch (perm r t) bs) =
        Attr.hessAt (fun t => batchLoss t data) θ := by
      intro r t
      have hl : Hessian.sampleBatch (perm r t) bs = perm r t := by
        unfold Hessian.sampleBatch
        exact List.take_of_length_le (by rw [(hperm r t).length_eq, List.length_range]; exact hbs)
      simp only [hl]
      congr 1
      funext t'
      exact batchLoss_perm (pick_perm data _ (hperm r t)) t'
    have hconv := (Hessian.C161_converges_iff (fun idx => Attr.hessAt (fun t => batchLoss t (pick data idx)) θ) perm bs rep _ hH (hsym data) d s hrep hs.ne').2 (by
      rintro μ ⟨w, hw, hw2⟩
      have hpos : 0 < w ⬝ᵥ w := lt_of_le_of_ne (huu w) fun h => hw (dotProduct_self_eq_zero.1 h.symm)
      obtain ⟨a, b⟩ := C177_bounds θ data B hB0 hB w
      rw [hw2, dotProduct_smul, smul_eq_mul] at a b
      have a' : 0 ≤ μ := nonneg_of_mul_nonneg_left a hpos
      have b' : μ ≤ B / 2 := le_of_mul_le_mul_right b hpos
      have h1 : 0 ≤ μ / s := div_nonneg a' hs.le
      have h2 : μ / s ≤ 2 * (1 - d) := by
        rw [div_le_iff₀ hs]; nlinarith
      rw [abs_lt]
      constructor <;> linarith) v
    obtain ⟨x, l, h1, h2⟩ := hconv
    exact ⟨x, l, h1, h2, Hessian.C161_limit (fun idx => Attr.hessAt (fun t => batchLoss t (pick data idx)) θ) perm bs rep _ hH d s hrep hs.ne' v l x h1 h2⟩

/-- **C177** (disagreement: LiSSA with the default damping 0). For this benchmark the recursion never converges for all vectors: neither with batches of
the whole data set, nor in expectation with mini-batches, whatever the scaling, the batch size, the data and the checkpoint. -/
theorem C177_lissa_default (hc : 0 < c) (data : List (Sample n c)) (θ : Fin (c * n + c) → ℝ) (s : ℝ) (hs : 0 < s) (rep : ℕ) (hrep : 0 < rep) :
    (∀ (perm : ℕ → ℕ → List ℕ) (bs : ℕ), data.length ≤ bs → (∀ r t, (perm r t).Perm (List.range data.length)) →
      ¬ ∀ v, ∃ (x : ℕ → Fin (c * n + c) → ℝ) (l : Fin (c * n + c) → ℝ),
        (∀ T, Hessian.ihvpLissa (fun idx => Attr.hessAt (fun t => batchLoss t (pick data idx)) θ) perm bs rep T 0 s v = .ok (some (x T))) ∧
        Tendsto x atTop (𝓝 l)) ∧
    (∀ bs : ℕ, ¬ ∀ v, ∃ (est : ∀ T, (Fin rep → Fin T → Equiv.Perm (Fin data.length)) → Fin (c * n + c) → ℝ) (l : Fin (c * n + c) → ℝ),
      (∀ T σ, Hessian.ihvpLissa (fun idx => Attr.hessAt (fun t => batchLoss t (pick data idx)) θ) (Hessian.drawsAll σ) bs rep T 0 s v = .ok (some (est T σ))) ∧
      Tendsto (fun T => Hessian.expect (est T)) atTop (𝓝 l)) := by
  have hsym : ∀ b : List (Sample n c), (Attr.hessAt (fun t => batchLoss t b) θ)ᵀ = Attr.hessAt (fun t => batchLoss t b) θ := fun b =>
    Attr.hessAt_symm (convexMean.loss_smooth b).contDiffAt
  have hne : (shift : Fin (c * n + c) → ℝ) ≠ 0 := by
    intro h
    have := congrFun h (Fin.natAdd (c * n) ⟨0, hc⟩)
    simp [shift] at this
  constructor
  · intro perm bs hbs hperm h
    have hH : ∀ r t, (fun idx => Attr.hessAt (fun t => batchLoss t (pick data idx)) θ) (Hessian.sampleBatch (perm r t) bs) =
        Attr.hessAt (fun t => batchLoss t data) θ := by
      intro r t
      have hl : Hessian.sampleBatch (perm r t) bs = perm r t := by
        unfold Hessian.sampleBatch
        exact List.take_of_length_le (by rw [(hperm r t).length_eq, List.length_range]; exact hbs)
      simp only [hl]
      congr 1
      funext t'
      exact batchLoss_perm (pick_perm data _ (hperm r t)) t'
    have := (Hessian.C161_undamped_iff (fun idx => Attr.hessAt (fun t => batchLoss t (pick data idx)) θ) perm bs rep _ hH (hsym data) s hrep hs).1 h 0 ⟨shift, hne, by rw [hess_shift, zero_smul]⟩
    exact lt_irrefl _ this.1
  · intro bs h
    have := (Hessian.C161_mean_iff (N := data.length) (fun idx => Attr.hessAt (fun t => batchLoss t (pick data idx)) θ) bs rep 0 s hrep hs.ne' (by
      unfold Hessian.expect
      rw [transpose_smul, transpose_sum]
      simp only [hsym])).1 h 0 ⟨shift, hne, by
        unfold Hessian.expect
        rw [smul_mulVec, sum_mulVec]
        simp only [hess_shift]
        simp⟩
    simp at this

/-- The bound cannot be improved: two classes, equal weights, any input. -/
theorem C177_sharp (x : Sample n 2) : ∃ u : Fin (2 * n + 2) → ℝ, u ≠ 0 ∧
    u ⬝ᵥ Attr.hessAt (fun t => batchLoss t [x]) 0 *ᵥ u = (∑ j, x.1 j ^ 2 + 1) / 2 * (u ⬝ᵥ u) := by
  let u : Fin (2 * n + 2) → ℝ := Fin.append (fun i => (if (finProdFinEquiv.symm i).1 = 0 then 1 else -1) * x.1 (finProdFinEquiv.symm i).2)
    (fun k => if k = 0 then 1 else -1)
  have hl : ∀ k, logits u x.1 k = (if k = 0 then 1 else -1) * (∑ j, x.1 j ^ 2 + 1) := by
    intro k
    unfold logits
    simp only [u, Fin.append_left, Fin.append_right, Equiv.symm_apply_apply]
    rw [mul_add, Finset.mul_sum, mul_one]
    congr 1
    exact Finset.sum_congr rfl fun j _ => by ring
  have hu : u ⬝ᵥ u = 2 * (∑ j, x.1 j ^ 2 + 1) := by
    unfold dotProduct
    rw [Fin.sum_univ_add, ← finProdFinEquiv.sum_comp, Fintype.sum_prod_type]
    simp only [u, Fin.append_left, Fin.append_right, Equiv.symm_apply_apply, Fin.sum_univ_two]
    simp only [pow_two]
    simp
    ring
  refine ⟨u, fun h => ?_, ?_⟩
  · have := congrFun h (Fin.natAdd (2 * n) 0)
    simp [u] at this
  · rw [C177_hessian, hu]
    have hp : ∀ k, classProb (0 : Fin (2 * n + 2) → ℝ) x.1 k = 1 / 2 := by
      intro k
      unfold classProb logits
      simp
    simp only [List.map_cons, List.map_nil, List.sum_cons, List.sum_nil, classVar, hp, hl, Fin.sum_univ_two]
    simp
    ring

/-- A case meeting the hypotheses: three inputs of squared length at most one, damping 1/100, scaling 50. -/
example : ∃ (data : List (Sample 1 2)) (B d s : ℝ), data.length = 3 ∧ 0 ≤ B ∧ (∀ x ∈ data, ∑ j, x.1 j ^ 2 + 1 ≤ B) ∧ 0 < d ∧ d < 1 ∧ 0 < s ∧ B ≤ 4 * s * (1 - d) :=
  ⟨[(fun _ => 1, 0), (fun _ => -1, 1), (fun _ => 1 / 2, 1)], 2, 1 / 100, 50, rfl, by norm_num, by
    intro x hx
    simp only [List.mem_cons, List.not_mem_nil, or_false] at hx
    rcases hx with rfl | rfl | rfl <;> norm_num, by norm_num, by norm_num, by norm_num, by norm_num⟩

end Verif.LogReg
