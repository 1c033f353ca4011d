import Verif.BlockIF.MeanProps
import Mathlib.Probability.Independence.Basic
import Mathlib.Probability.Independence.Integration

/-!
# Helper lemmas for C235: second moments of products of independent Gram matrices
-/

namespace Verif.BlockIF

open Verif Verif.DVEmb Verif.Projection MeasureTheory ProbabilityTheory Finset Matrix

/-! ### Functions of disjoint sets of coordinates -/

/-- Functions of disjoint sets of coordinates are independent. -/
lemma indep_coords {ι : Type} [Fintype ι] [DecidableEq ι] (S : ι → Prop) (f g : (ι → ℝ) → ℝ) (hf : Measurable f) (hg : Measurable g)
    (hfS : ∀ G G' : ι → ℝ, (∀ i, S i → G i = G' i) → f G = f G') (hgS : ∀ G G' : ι → ℝ, (∀ i, ¬ S i → G i = G' i) → g G = g G') :
    IndepFun f g (gauss ι) := by
  classical
  have h : iIndepFun (fun (i : ι) (ω : ι → ℝ) => ω i) (gauss ι) := iIndepFun_pi (X := fun _ => id) fun _ => aemeasurable_id
  have h2 := h.indepFun_finset (univ.filter S) (univ.filter fun i => ¬ S i) (disjoint_filter_filter_not _ _ _) fun i => measurable_pi_apply i
  have ext : ∀ (T : Finset ι), Measurable fun (w : T → ℝ) (i : ι) => if h : i ∈ T then w ⟨i, h⟩ else (0 : ℝ) := by
    intro T
    refine measurable_pi_lambda _ fun i => ?_
    by_cases hi : i ∈ T
    · simp only [hi, dif_pos]
      exact measurable_pi_apply _
    · simp only [hi]
      exact measurable_const
  have h3 := h2.comp (hf.comp (ext _)) (hg.comp (ext _))
  have e : ∀ (T : Finset ι) (φ : (ι → ℝ) → ℝ), (∀ G G' : ι → ℝ, (∀ i ∈ T, G i = G' i) → φ G = φ G') →
      (φ ∘ fun (w : T → ℝ) (i : ι) => if h : i ∈ T then w ⟨i, h⟩ else (0 : ℝ)) ∘ (fun (a : ι → ℝ) (i : T) => a i) = φ := by
    intro T φ hφ
    funext G
    refine hφ _ _ fun i hi => ?_
    simp [hi]
  rwa [e _ f fun G G' h => hfS _ _ fun i hi => h i (by simpa using hi), e _ g fun G G' h => hgS _ _ fun i hi => h i (by simpa using hi)] at h3

/-! ### Gram matrices -/

variable {m n k : ℕ}

/-- The entry `(a, b)` of the Gram matrix of the drawn columns. -/
def gramAt {ι : Type} (p : Fin m × Fin k → ι) (t : Fin m × Fin m) (G : ι → ℝ) : ℝ := ∑ r, G (p (t.1, r)) * G (p (t.2, r))

/-- The second moments of the Gram matrix. -/
def pairs (m k : ℕ) (t u : Fin m × Fin m) : ℝ :=
  k ^ 2 * ((if t.1 = t.2 then 1 else 0) * (if u.1 = u.2 then 1 else 0)) +
    k * ((if t.1 = u.1 then 1 else 0) * (if t.2 = u.2 then 1 else 0) + (if t.1 = u.2 then 1 else 0) * (if t.2 = u.1 then 1 else 0))

lemma measurable_gramAt {ι : Type} (p : Fin m × Fin k → ι) (t : Fin m × Fin m) : Measurable (gramAt p t) := by
  unfold gramAt
  fun_prop

lemma gram_two {ι : Type} [Fintype ι] [DecidableEq ι] (p : Fin m × Fin k → ι) (hp : Function.Injective p) (t u : Fin m × Fin m) :
    Integrable (fun G => gramAt p t G * gramAt p u G) (gauss ι) ∧ ∫ G, gramAt p t G * gramAt p u G ∂(gauss ι) = pairs m k t u := by
  have hfun : (fun G : ι → ℝ => gramAt p t G * gramAt p u G) = fun G => ∑ r, ∑ s, G (p (t.1, r)) * G (p (t.2, r)) * (G (p (u.1, s)) * G (p (u.2, s))) := by
    funext G
    rw [gramAt, gramAt, sum_mul_sum]
  have hi : ∀ r s : Fin k, Integrable (fun G : ι → ℝ => G (p (t.1, r)) * G (p (t.2, r)) * (G (p (u.1, s)) * G (p (u.2, s)))) (gauss ι) :=
    fun r s => (gauss_coord _ _ _ _).1
  rw [hfun]
  refine ⟨integrable_finsetSum _ fun r _ => integrable_finsetSum _ fun s _ => hi r s, ?_⟩
  rw [integral_finsetSum _ fun r _ => integrable_finsetSum _ fun s _ => hi r s]
  have hr : ∀ r : Fin k, ∫ G : ι → ℝ, ∑ s, G (p (t.1, r)) * G (p (t.2, r)) * (G (p (u.1, s)) * G (p (u.2, s))) ∂(gauss ι) =
      k * ((if t.1 = t.2 then 1 else 0) * (if u.1 = u.2 then 1 else 0)) +
        ((if t.1 = u.1 then 1 else 0) * (if t.2 = u.2 then 1 else 0) + (if t.1 = u.2 then 1 else 0) * (if t.2 = u.1 then 1 else 0)) := by
    intro r
    rw [integral_finsetSum _ fun s _ => hi r s]
    simp only [(gauss_coord _ _ _ _).2, hp.eq_iff, Prod.mk.injEq, and_true, sum_add_distrib, sum_const, card_univ, Fintype.card_fin, nsmul_eq_mul]
    have hx : ∀ a b c d : Fin m, ∑ s : Fin k, (if a = b ∧ r = s then (1 : ℝ) else 0) * (if c = d ∧ r = s then 1 else 0) =
        (if a = b then 1 else 0) * (if c = d then 1 else 0) := by
      intro a b c d
      rw [sum_eq_single r]
      · simp
      · intro s _ hs
        simp [Ne.symm hs]
      · simp
    rw [hx, hx]
    ring
  simp only [hr, sum_const, card_univ, Fintype.card_fin, nsmul_eq_mul, pairs]
  ring

lemma sum_pairs (F : Fin m → Fin m → Fin m → Fin m → ℝ) :
    ∑ t : Fin m × Fin m, ∑ u : Fin m × Fin m, F t.1 t.2 u.1 u.2 * pairs m k t u =
      k ^ 2 * (∑ a, ∑ b, F a a b b) + k * ((∑ a, ∑ b, F a b a b) + ∑ a, ∑ b, F a b b a) := by
  have h : ∀ a b c d : Fin m, F a b c d * pairs m k (a, b) (c, d) =
      k ^ 2 * (if a = b then if c = d then F a b c d else 0 else 0) +
        k * ((if a = c then if b = d then F a b c d else 0 else 0) + if a = d then if b = c then F a b c d else 0 else 0) := by
    intro a b c d
    simp only [pairs]
    split_ifs <;> simp <;> ring
  simp only [Fintype.sum_prod_type, h, sum_add_distrib, ← mul_sum]
  congr 2
  · refine sum_congr rfl fun a _ => ?_
    rw [sum_eq_single a]
    · refine sum_congr rfl fun c _ => ?_
      simp
    · intro b _ hb
      simp [Ne.symm hb]
    · simp
  · congr 1
    · refine sum_congr rfl fun a _ => sum_congr rfl fun b _ => ?_
      rw [sum_eq_single a]
      · simp
      · intro c _ hc
        simp [Ne.symm hc]
      · simp
    · refine sum_congr rfl fun a _ => sum_congr rfl fun b _ => ?_
      rw [sum_eq_single b]
      · simp
      · intro c _ hc
        simp [Ne.symm hc]
      · simp

/-! ### One layer -/

/-- The inner product of the two projected gradients in one layer, before the scaling. -/
def formAt {ι : Type} (p : Fin m × Fin k → ι) (q : Fin n × Fin k → ι) (X Y : Matrix (Fin m) (Fin n) ℝ) (G : ι → ℝ) : ℝ :=
  ∑ t : Fin m × Fin m, ∑ v : Fin n × Fin n, X t.1 v.1 * Y t.2 v.2 * (gramAt p t G * gramAt q v G)

lemma measurable_formAt {ι : Type} (p : Fin m × Fin k → ι) (q : Fin n × Fin k → ι) (X Y : Matrix (Fin m) (Fin n) ℝ) : Measurable (formAt p q X Y) := by
  unfold formAt gramAt
  fun_prop

lemma form_sq {ι : Type} [Fintype ι] [DecidableEq ι] (p : Fin m × Fin k → ι) (q : Fin n × Fin k → ι) (hp : Function.Injective p) (hq : Function.Injective q)
    (hpq : ∀ a b, p a ≠ q b) (X Y : Matrix (Fin m) (Fin n) ℝ) :
    Integrable (fun G => formAt p q X Y G ^ 2) (gauss ι) ∧ ∫ G, formAt p q X Y G ^ 2 ∂(gauss ι) =
      ∑ v : Fin n × Fin n, ∑ w : Fin n × Fin n, (∑ t : Fin m × Fin m, ∑ u : Fin m × Fin m,
        (X t.1 v.1 * Y t.2 v.2 * (X u.1 w.1 * Y u.2 w.2)) * pairs m k t u) * pairs n k v w := by
  have hfun : (fun G : ι → ℝ => formAt p q X Y G ^ 2) = fun G => ∑ v : Fin n × Fin n, ∑ w : Fin n × Fin n, ∑ t : Fin m × Fin m, ∑ u : Fin m × Fin m,
      X t.1 v.1 * Y t.2 v.2 * (X u.1 w.1 * Y u.2 w.2) * ((gramAt p t G * gramAt p u G) * (gramAt q v G * gramAt q w G)) := by
    funext G
    have hc : formAt p q X Y G = ∑ v : Fin n × Fin n, ∑ t : Fin m × Fin m, X t.1 v.1 * Y t.2 v.2 * (gramAt p t G * gramAt q v G) := by
      rw [formAt, sum_comm]
    rw [hc, pow_two, sum_mul_sum]
    refine sum_congr rfl fun v _ => sum_congr rfl fun w _ => ?_
    rw [sum_mul_sum]
    refine sum_congr rfl fun t _ => sum_congr rfl fun u _ => ?_
    ring
  have hind : ∀ (t u : Fin m × Fin m) (v w : Fin n × Fin n),
      IndepFun (fun G => gramAt p t G * gramAt p u G) (fun G => gramAt q v G * gramAt q w G) (gauss ι) := by
    intro t u v w
    refine indep_coords (fun i => ∃ a, p a = i) _ _ ((measurable_gramAt p t).mul (measurable_gramAt p u))
      ((measurable_gramAt q v).mul (measurable_gramAt q w)) ?_ ?_
    · intro G G' h
      have h' : ∀ a, G (p a) = G' (p a) := fun a => h _ ⟨a, rfl⟩
      simp only [gramAt, h']
    · intro G G' h
      have h' : ∀ a, G (q a) = G' (q a) := fun a => h _ fun ⟨b, hb⟩ => hpq b a hb
      simp only [gramAt, h']
  have hone : ∀ (t u : Fin m × Fin m) (v w : Fin n × Fin n),
      Integrable (fun G => (gramAt p t G * gramAt p u G) * (gramAt q v G * gramAt q w G)) (gauss ι) ∧
      ∫ G, (gramAt p t G * gramAt p u G) * (gramAt q v G * gramAt q w G) ∂(gauss ι) = pairs m k t u * pairs n k v w := by
    intro t u v w
    obtain ⟨i1, e1⟩ := gram_two p hp t u
    obtain ⟨i2, e2⟩ := gram_two q hq v w
    refine ⟨(hind t u v w).integrable_mul i1 i2, ?_⟩
    rw [← e1, ← e2]
    exact (hind t u v w).integral_mul_eq_mul_integral i1.1 i2.1
  have hi : ∀ (v w : Fin n × Fin n) (t u : Fin m × Fin m), Integrable (fun G =>
      X t.1 v.1 * Y t.2 v.2 * (X u.1 w.1 * Y u.2 w.2) * ((gramAt p t G * gramAt p u G) * (gramAt q v G * gramAt q w G))) (gauss ι) :=
    fun v w t u => (hone t u v w).1.const_mul _
  have hi3 := fun v w t => integrable_finsetSum univ fun u _ => hi v w t u
  have hi2 := fun v w => integrable_finsetSum univ fun t _ => hi3 v w t
  have hi1 := fun v => integrable_finsetSum univ fun w _ => hi2 v w
  rw [hfun]
  refine ⟨integrable_finsetSum univ fun v _ => hi1 v, ?_⟩
  rw [integral_finsetSum univ fun v _ => hi1 v]
  refine sum_congr rfl fun v _ => ?_
  rw [integral_finsetSum univ fun w _ => hi2 v w]
  refine sum_congr rfl fun w _ => ?_
  rw [integral_finsetSum univ fun t _ => hi3 v w t, sum_mul]
  refine sum_congr rfl fun t _ => ?_
  rw [integral_finsetSum univ fun u _ => hi v w t u, sum_mul]
  refine sum_congr rfl fun u _ => ?_
  rw [integral_const_mul, (hone t u v w).2]
  ring

/-- The sum of the squared entries. -/
def sqSum {a b : ℕ} (M : Matrix (Fin a) (Fin b) ℝ) : ℝ := ∑ i, ∑ j, M i j ^ 2

/-- The inner product of two matrices. -/
def mdot {a b : ℕ} (X Y : Matrix (Fin a) (Fin b) ℝ) : ℝ := ∑ i, ∑ j, X i j * Y i j

lemma sqSum_nonneg' {a b : ℕ} (M : Matrix (Fin a) (Fin b) ℝ) : 0 ≤ sqSum M := sum_nonneg fun _ _ => sum_nonneg fun _ _ => sq_nonneg _

lemma sqSum_eq_trace {a b : ℕ} (M : Matrix (Fin a) (Fin b) ℝ) : sqSum M = (M * Mᵀ).trace := by
  simp [sqSum, trace, mul_apply, pow_two]

lemma gram_dot (X Y : Matrix (Fin m) (Fin n) ℝ) : ∑ a, ∑ b, (Xᵀ * X) a b * (Yᵀ * Y) a b = sqSum (X * Yᵀ) := by
  have h : ∑ a, ∑ b, (Xᵀ * X) a b * (Yᵀ * Y) a b = (Xᵀ * X * (Yᵀ * Y)ᵀ).trace := by
    simp only [trace, diag_apply, mul_apply (M := Xᵀ * X), transpose_apply (M := Yᵀ * Y)]
  rw [h, sqSum_eq_trace, transpose_mul, transpose_mul, transpose_transpose]
  rw [Matrix.mul_assoc Xᵀ X, trace_mul_comm Xᵀ]
  simp only [Matrix.mul_assoc]

lemma form_value (X Y : Matrix (Fin m) (Fin n) ℝ) :
    ∑ v : Fin n × Fin n, ∑ w : Fin n × Fin n, (∑ t : Fin m × Fin m, ∑ u : Fin m × Fin m,
        (X t.1 v.1 * Y t.2 v.2 * (X u.1 w.1 * Y u.2 w.2)) * pairs m k t u) * pairs n k v w =
      k ^ 4 * mdot X Y ^ 2 + k ^ 3 * (sqSum (Xᵀ * Y) + sqSum (X * Yᵀ) + 2 * ((Xᵀ * Y) * (Xᵀ * Y)).trace) +
        k ^ 2 * (sqSum X * sqSum Y + sqSum (Xᵀ * Y) + sqSum (X * Yᵀ) + mdot X Y ^ 2) := by
  have h1 : ∀ v w : Fin n × Fin n, ∑ t : Fin m × Fin m, ∑ u : Fin m × Fin m, (X t.1 v.1 * Y t.2 v.2 * (X u.1 w.1 * Y u.2 w.2)) * pairs m k t u =
      k ^ 2 * ((Xᵀ * Y) v.1 v.2 * (Xᵀ * Y) w.1 w.2) +
        k * ((Xᵀ * X) v.1 w.1 * (Yᵀ * Y) v.2 w.2 + (Xᵀ * Y) v.1 w.2 * (Xᵀ * Y) w.1 v.2) := by
    intro v w
    have := sum_pairs (k := k) fun a b c d => X a v.1 * Y b v.2 * (X c w.1 * Y d w.2)
    rw [this]
    simp only [mul_apply, transpose_apply, sum_mul_sum]
    congr 3
    · exact sum_congr rfl fun a _ => sum_congr rfl fun b _ => by ring
    · exact sum_congr rfl fun a _ => sum_congr rfl fun b _ => by ring
  simp only [h1]
  have := sum_pairs (k := k) fun i i' j j' => (k : ℝ) ^ 2 * ((Xᵀ * Y) i i' * (Xᵀ * Y) j j') +
        k * ((Xᵀ * X) i j * (Yᵀ * Y) i' j' + (Xᵀ * Y) i j' * (Xᵀ * Y) j i')
  rw [this]
  have e1 : ∑ a, (Xᵀ * Y) a a = mdot X Y := by
    simp only [mul_apply, transpose_apply, mdot]
    exact sum_comm
  have e2 : ∀ Z : Matrix (Fin m) (Fin n) ℝ, ∑ a, (Zᵀ * Z) a a = sqSum Z := by
    intro Z
    simp only [mul_apply, transpose_apply, sqSum, pow_two]
    exact sum_comm
  have e3 : ∑ a, ∑ b, (Xᵀ * Y) a b * (Xᵀ * Y) b a = ((Xᵀ * Y) * (Xᵀ * Y)).trace := by
    simp only [trace, diag_apply, mul_apply (M := Xᵀ * Y)]
  have e4 : ∑ a, ∑ b, (Xᵀ * Y) a b * (Xᵀ * Y) a b = sqSum (Xᵀ * Y) := by simp only [sqSum, pow_two]
  have e5 : ∀ a b, (Yᵀ * Y) b a = (Yᵀ * Y) a b := by
    intro a b
    simp only [mul_apply, transpose_apply]
    exact sum_congr rfl fun _ _ => mul_comm _ _
  simp only [sum_add_distrib, ← mul_sum, e5, ← sum_mul, e1, e2, e3, e4, gram_dot]
  ring

/-! ### Bounds -/

lemma sqSum_mul_le {a b c : ℕ} (X : Matrix (Fin a) (Fin b) ℝ) (Y : Matrix (Fin b) (Fin c) ℝ) : sqSum (X * Y) ≤ sqSum X * sqSum Y := by
  have h : sqSum X * sqSum Y = ∑ i, ∑ j, (∑ l, X i l ^ 2) * ∑ l, Y l j ^ 2 := by
    have : sqSum Y = ∑ j, ∑ l, Y l j ^ 2 := sum_comm
    rw [this, sqSum, sum_mul_sum]
  rw [h]
  refine sum_le_sum fun i _ => sum_le_sum fun j _ => ?_
  rw [mul_apply]
  exact sum_mul_sq_le_sq_mul_sq univ _ _

lemma sqSum_transpose {a b : ℕ} (X : Matrix (Fin a) (Fin b) ℝ) : sqSum Xᵀ = sqSum X := sum_comm

lemma mdot_sq_le {a b : ℕ} (X Y : Matrix (Fin a) (Fin b) ℝ) : mdot X Y ^ 2 ≤ sqSum X * sqSum Y := by
  have := sum_mul_sq_le_sq_mul_sq (univ : Finset (Fin a × Fin b)) (fun q => X q.1 q.2) fun q => Y q.1 q.2
  simpa only [Fintype.sum_prod_type, mdot, sqSum] using this

lemma trace_sq_le {a : ℕ} (N : Matrix (Fin a) (Fin a) ℝ) : (N * N).trace ≤ sqSum N := by
  have h1 : (N * N).trace = ∑ i, ∑ j, N i j * N j i := by simp [trace, mul_apply]
  have h2 : 2 * sqSum N = ∑ i, ∑ j, (N i j ^ 2 + N j i ^ 2) := by
    simp only [sum_add_distrib]
    have : ∑ i, ∑ j, N j i ^ 2 = sqSum N := sum_comm
    rw [this, sqSum]
    ring
  have h3 : 2 * (N * N).trace ≤ 2 * sqSum N := by
    rw [h1, h2, mul_sum]
    refine sum_le_sum fun i _ => ?_
    rw [mul_sum]
    refine sum_le_sum fun j _ => ?_
    nlinarith [sq_nonneg (N i j - N j i)]
  linarith

end Verif.BlockIF
