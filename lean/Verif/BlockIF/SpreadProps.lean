import Verif.BlockIF.SpreadLemmas
import Mathlib.Probability.Moments.Variance

/-!
# C235: how far LoGra's scores are from the exact ones

The model is that of C168 (`Verif.BlockIF.MeanProps`): `/repo/dattri/algorithm/logra.py` lines 76-117 with the compressed gradients of `core/compressor.py` lines
140-210; `proj_dim_per_layer` is `k * k`.
-/

namespace Verif.BlockIF

open Verif Verif.DVEmb Verif.Projection MeasureTheory ProbabilityTheory Finset Matrix

variable {L : ℕ} {din dout : Fin L → ℕ} {k : ℕ}

/-! ### Specification -/

/-- The variance of the inner product of two projected gradients `X`, `Y` of one layer (`sqSum`: the sum of the squared entries, `mdot`: the inner product). -/
noncomputable def spread (k : ℕ) {a b : ℕ} (X Y : Matrix (Fin a) (Fin b) ℝ) : ℝ :=
  (sqSum (Xᵀ * Y) + sqSum (X * Yᵀ) + 2 * ((Xᵀ * Y) * (Xᵀ * Y)).trace) / k +
    (sqSum X * sqSum Y + sqSum (Xᵀ * Y) + sqSum (X * Yᵀ) + mdot X Y ^ 2) / k ^ 2

/-! ### Helper lemmas -/

/-- The positions of the numbers drawn for the output side of layer `l`. -/
def outAt (l : Fin L) (q : Fin (dout l) × Fin k) : Noise din dout k := .inl ⟨l, q⟩

/-- The positions of the numbers drawn for the input side of layer `l`. -/
def inAt (l : Fin L) (q : Fin (din l) × Fin k) : Noise din dout k := .inr ⟨l, q⟩

lemma outAt_injective (l : Fin L) : Function.Injective (outAt (din := din) (dout := dout) (k := k) l) := by
  intro a b h
  simpa [outAt] using h

lemma inAt_injective (l : Fin L) : Function.Injective (inAt (din := din) (dout := dout) (k := k) l) := by
  intro a b h
  simpa [inAt] using h

/-- The layer's part of the score is the form in the Gram matrices. -/
lemma layer_eq {B B' : ℕ} (hB : B ≠ 0) (hB' : B' ≠ 0) (l : Fin L) (f g : Factors ℝ (din l) (dout l)) (G : Noise din dout k → ℝ) :
    ∑ m, compress (outMat G l) (inMat G l) (flatten k) B (ofMean B f) m * compress (outMat G l) (inMat G l) (flatten k) B' (ofMean B' g) m =
      formAt (outAt l) (inAt l) (gradW f) (gradW g) G / (k : ℝ) ^ 2 := by
  have hs : ∀ (X : Matrix (Fin (dout l)) (Fin (din l)) ℝ) (r s : Fin k),
      ∑ o, ∑ i, X o i * (outMat G l r o * inMat G l s i) = (∑ o, ∑ i, X o i * (G (outAt l (o, r)) * G (inAt l (i, s)))) / k := by
    intro X r s
    rw [sum_div]
    refine sum_congr rfl fun o _ => ?_
    rw [sum_div]
    refine sum_congr rfl fun i _ => ?_
    rw [outMat, inMat, div_mul_div_comm, Real.mul_self_sqrt (Nat.cast_nonneg k), mul_div_assoc']
    rfl
  simp only [compress_eq hB, compress_eq hB', hs, div_mul_div_comm]
  rw [← sum_div, ← pow_two (k : ℝ)]
  congr 1
  rw [finProdFinEquiv.symm.sum_comp fun q : Fin k × Fin k =>
    (∑ o, ∑ i, gradW f o i * (G (outAt l (o, q.1)) * G (inAt l (i, q.2)))) * ∑ o, ∑ i, gradW g o i * (G (outAt l (o, q.1)) * G (inAt l (i, q.2)))]
  simp only [formAt, gramAt, Fintype.sum_prod_type]
  have h1 : ∀ r s : Fin k, (∑ o, ∑ i, gradW f o i * (G (outAt l (o, r)) * G (inAt l (i, s)))) *
      (∑ o, ∑ i, gradW g o i * (G (outAt l (o, r)) * G (inAt l (i, s)))) =
      ∑ o, ∑ o', ∑ i, ∑ i', gradW f o i * gradW g o' i' * ((G (outAt l (o, r)) * G (outAt l (o', r))) * (G (inAt l (i, s)) * G (inAt l (i', s)))) := by
    intro r s
    rw [sum_mul_sum]
    refine sum_congr rfl fun o _ => sum_congr rfl fun o' _ => ?_
    rw [sum_mul_sum]
    refine sum_congr rfl fun i _ => sum_congr rfl fun i' _ => ?_
    ring
  simp only [h1]
  have h2 : ∀ (o o' : Fin (dout l)) (i i' : Fin (din l)), gradW f o i * gradW g o' i' *
      ((∑ r, G (outAt l (o, r)) * G (outAt l (o', r))) * ∑ s, G (inAt l (i, s)) * G (inAt l (i', s))) =
      ∑ r : Fin k, ∑ s : Fin k, gradW f o i * gradW g o' i' * ((G (outAt l (o, r)) * G (outAt l (o', r))) * (G (inAt l (i, s)) * G (inAt l (i', s)))) := by
    intro o o' i i'
    rw [sum_mul_sum, mul_sum]
    refine sum_congr rfl fun r _ => ?_
    rw [mul_sum]
  simp only [h2]
  have h3 : ∀ (F : Fin k → Fin k → Fin (dout l) → Fin (dout l) → Fin (din l) → Fin (din l) → ℝ),
      ∑ r, ∑ s, ∑ o, ∑ o', ∑ i, ∑ i', F r s o o' i i' = ∑ o, ∑ o', ∑ i, ∑ i', ∑ r, ∑ s, F r s o o' i i' := by
    intro F
    have a1 : ∀ (c d : ℕ) (H : Fin k → Fin k → Fin c → Fin d → ℝ), ∑ r, ∑ s, ∑ x, ∑ y, H r s x y = ∑ x, ∑ y, ∑ r, ∑ s, H r s x y := by
      intro c d H
      have := sum_comm (s := (univ : Finset (Fin k × Fin k))) (t := (univ : Finset (Fin c × Fin d))) (f := fun q z => H q.1 q.2 z.1 z.2)
      simpa only [Fintype.sum_prod_type] using this
    rw [a1]
    refine sum_congr rfl fun o _ => sum_congr rfl fun o' _ => ?_
    rw [a1]
  rw [h3]

lemma layer_sq (hk : 0 < k) (l : Fin L) (X Y : Matrix (Fin (dout l)) (Fin (din l)) ℝ) :
    MemLp (fun G : Noise din dout k → ℝ => formAt (outAt l) (inAt l) X Y G / (k : ℝ) ^ 2) 2 (gauss (Noise din dout k)) ∧
    ∫ G : Noise din dout k → ℝ, (formAt (outAt l) (inAt l) X Y G / (k : ℝ) ^ 2) ^ 2 ∂(gauss (Noise din dout k)) = mdot X Y ^ 2 + spread k X Y := by
  obtain ⟨h1, h2⟩ := form_sq (ι := Noise din dout k) (outAt l) (inAt l) (outAt_injective l) (inAt_injective l) (fun a b => by simp [outAt, inAt]) X Y
  have hk' : (k : ℝ) ≠ 0 := by exact_mod_cast hk.ne'
  have hm := (measurable_formAt (outAt (din := din) (k := k) l) (inAt l) X Y).div_const ((k : ℝ) ^ 2)
  simp only [div_pow]
  refine ⟨(memLp_two_iff_integrable_sq hm.aestronglyMeasurable).2 ?_, ?_⟩
  · simp only [div_pow]
    exact h1.div_const _
  · rw [integral_div, h2, form_value, spread]
    field_simp
    ring

lemma layer_indep (l l' : Fin L) (hl : l ≠ l') (X Y : Matrix (Fin (dout l)) (Fin (din l)) ℝ) (X' Y' : Matrix (Fin (dout l')) (Fin (din l')) ℝ) :
    IndepFun (fun G : Noise din dout k → ℝ => formAt (outAt l) (inAt l) X Y G / (k : ℝ) ^ 2)
      (fun G : Noise din dout k → ℝ => formAt (outAt l') (inAt l') X' Y' G / (k : ℝ) ^ 2) (gauss (Noise din dout k)) := by
  refine indep_coords (fun z => (∃ q, outAt l q = z) ∨ ∃ q, inAt l q = z) _ _ ((measurable_formAt _ _ X Y).div_const _)
    ((measurable_formAt _ _ X' Y').div_const _) ?_ ?_
  · intro G G' h
    have h1 : ∀ q, G (outAt l q) = G' (outAt l q) := fun q => h _ (Or.inl ⟨q, rfl⟩)
    have h2 : ∀ q, G (inAt l q) = G' (inAt l q) := fun q => h _ (Or.inr ⟨q, rfl⟩)
    simp only [formAt, gramAt, h1, h2]
  · intro G G' h
    have h1 : ∀ q, G (outAt l' q) = G' (outAt l' q) := by
      intro q
      refine h _ ?_
      rintro (⟨a, ha⟩ | ⟨a, ha⟩)
      · simp only [outAt, Sum.inl.injEq, Sigma.mk.injEq] at ha
        exact hl ha.1
      · simp [outAt, inAt] at ha
    have h2 : ∀ q, G (inAt l' q) = G' (inAt l' q) := by
      intro q
      refine h _ ?_
      rintro (⟨a, ha⟩ | ⟨a, ha⟩)
      · simp [outAt, inAt] at ha
      · simp only [inAt, Sum.inr.injEq, Sigma.mk.injEq] at ha
        exact hl ha.1
    simp only [formAt, gramAt, h1, h2]

/-- The variance of a score. -/
lemma score_var (hk : 0 < k) {B B' : ℕ} (hB : B ≠ 0) (hB' : B' ≠ 0) (f g : (l : Fin L) → Factors ℝ (din l) (dout l)) :
    Integrable (fun G : Noise din dout k → ℝ => (∑ l, ∑ m, compress (outMat G l) (inMat G l) (flatten k) B (ofMean B (f l)) m *
      compress (outMat G l) (inMat G l) (flatten k) B' (ofMean B' (g l)) m - ∑ l, mdot (gradW (f l)) (gradW (g l))) ^ 2) (gauss (Noise din dout k)) ∧
    ∫ G : Noise din dout k → ℝ, (∑ l, ∑ m, compress (outMat G l) (inMat G l) (flatten k) B (ofMean B (f l)) m *
      compress (outMat G l) (inMat G l) (flatten k) B' (ofMean B' (g l)) m - ∑ l, mdot (gradW (f l)) (gradW (g l))) ^ 2 ∂(gauss (Noise din dout k)) =
      ∑ l, spread k (gradW (f l)) (gradW (g l)) := by
  have hmean := mean_dot (din := din) (dout := dout) hk hB hB' f g
  have hone : ∀ l, ∫ G : Noise din dout k → ℝ, formAt (outAt l) (inAt l) (gradW (f l)) (gradW (g l)) G / (k : ℝ) ^ 2 ∂(gauss (Noise din dout k)) =
      mdot (gradW (f l)) (gradW (g l)) := by
    intro l
    have := mean_dot (k := k) (din := din) (dout := dout) hk hB hB' (fun l' => if l' = l then f l' else .three []) g
    simp only [layer_eq hB hB'] at this
    rw [sum_eq_single l] at this
    · rw [if_pos rfl] at this
      refine Eq.trans ?_ this
      refine integral_congr_ae (Filter.Eventually.of_forall fun G => ?_)
      show _ = ∑ l', _
      rw [sum_eq_single l]
      · simp
      · intro l' _ hl'
        simp [hl', formAt, gradW]
      · simp
    · intro l' _ hl'
      simp [hl', gradW]
    · simp
  simp only [layer_eq hB hB'] at hmean ⊢
  set S : Fin L → (Noise din dout k → ℝ) → ℝ := fun l G => formAt (outAt l) (inAt l) (gradW (f l)) (gradW (g l)) G / (k : ℝ) ^ 2 with hS
  have hL : ∀ l, MemLp (S l) 2 (gauss (Noise din dout k)) := fun l => (layer_sq hk l _ _).1
  have hsum : MemLp (∑ l, S l) 2 (gauss (Noise din dout k)) := memLp_finsetSum' _ fun l _ => hL l
  have hvar := IndepFun.variance_sum (s := univ) (X := S) (fun l _ => hL l) (fun l _ l' _ hne => layer_indep l l' hne _ _ _ _)
  have hfun : (fun G => ∑ l, formAt (outAt l) (inAt l) (gradW (f l)) (gradW (g l)) G / (k : ℝ) ^ 2) = ∑ l, S l := by
    funext G
    simp [hS]
  have hm : ∫ G, (∑ l, S l) G ∂(gauss (Noise din dout k)) = ∑ l, mdot (gradW (f l)) (gradW (g l)) := by
    rw [← hfun]
    exact hmean
  have hl : ∀ l, variance (S l) (gauss (Noise din dout k)) = spread k (gradW (f l)) (gradW (g l)) := by
    intro l
    rw [variance_eq_sub (hL l)]
    have h1 : ∫ G, (S l ^ 2) G ∂(gauss (Noise din dout k)) = _ := (layer_sq hk l (gradW (f l)) (gradW (g l))).2
    rw [h1, hone l]
    ring
  have hfun' : (fun G => (∑ l, formAt (outAt l) (inAt l) (gradW (f l)) (gradW (g l)) G / (k : ℝ) ^ 2 - ∑ l, mdot (gradW (f l)) (gradW (g l))) ^ 2) =
      fun G => ((∑ l, S l) G - ∫ G, (∑ l, S l) G ∂(gauss (Noise din dout k))) ^ 2 := by
    funext G
    rw [hm, ← hfun]
  rw [hfun']
  refine ⟨(hsum.sub (memLp_const _)).integrable_sq, ?_⟩
  rw [← variance_eq_integral hsum.aemeasurable, hvar]
  exact sum_congr rfl fun l _ => hl l

/-- The scores in terms of the compressed gradients. -/
lemma logra_scores (hk : 0 < k) (hL : 0 < L) (spec spec' : Loader) (train test : List (List ((l : Fin L) → Factors ℝ (din l) (dout l))))
    (hs : Served spec train) (hne : train ≠ []) (ht : test.flatten ≠ []) (damping : Option ℝ) (again : Data ℝ fun _ : Fin L => k * k) :
    ∃ M : (Noise din dout k → ℝ) → Mat ℝ,
      (∀ G, ∃ st, cache .identity damping (St.new ℝ _ none) (lograData G spec train) = (st, .ok ()) ∧
        (attribute' .identity damping st again (lograData G spec' test)).2 = .ok (M G)) ∧
      ∀ (i j : ℕ) (f g : (l : Fin L) → Factors ℝ (din l) (dout l)), train.flatten[i]? = some f → test.flatten[j]? = some g →
        ∃ B B' : ℕ, B ≠ 0 ∧ B' ≠ 0 ∧ ∀ G, (M G).f i j = ∑ l, ∑ m, compress (outMat G l) (inMat G l) (flatten k) B (ofMean B (f l)) m *
          compress (outMat G l) (inMat G l) (flatten k) B' (ofMean B' (g l)) m := by
  have hd : ∑ _l : Fin L, k * k ≠ 0 := by
    simp
    omega
  have hall : ∀ G : Noise din dout k → ℝ, ∃ st M, cache .identity damping (St.new ℝ _ none) (lograData G spec train) = (st, .ok ()) ∧
      (attribute' .identity damping st again (lograData G spec' test)).2 = .ok M ∧
      Scores M (lograData G spec train).batches.flatten (lograData G spec' test).batches.flatten := by
    intro G
    have hwf := lograData_wf G hs
    have hne' : (lograData G spec train).batches ≠ [] := by simpa [lograData] using hne
    have ht' : (lograData G spec' test).batches.flatten ≠ [] := by
      intro h
      apply ht
      rw [← List.length_eq_zero_iff, ← lograData_length G spec' test, h]
      rfl
    obtain ⟨st, h1, -⟩ := stored_cache (stored_new (K := ℝ)) hwf hne' (fun hl => by rw [List.length_eq_zero_iff.1 hl])
    have hc : cache .identity damping (St.new ℝ _ none) (lograData G spec train) = (st, .ok ()) := by
      unfold cache
      rw [h1]
    obtain ⟨M, h2, h3⟩ := C60_entries .identity damping hwf hne' hc again (lograData G spec' test) ht' hd
    have hid : (preconditioned Hessian.identity (damping.getD (1 / 100000)) (lograData G spec train).batches.flatten) = id := rfl
    rw [hid, List.map_id] at h3
    exact ⟨st, M, hc, h2, h3⟩
  choose st M h1 h2 h3 using hall
  refine ⟨M, fun G => ⟨st G, h1 G, h2 G⟩, ?_⟩
  intro i j f g hi hj
  obtain ⟨B, hB, e1⟩ := flatten_data (k := k) spec train i f hi
  obtain ⟨B', hB', e2⟩ := flatten_data (k := k) spec' test j g hj
  exact ⟨B, B', hB, hB', fun G => (h3 G).f i j _ _ (e1 G) (e2 G)⟩

/-! ### C235 -/

/-- **C235** (mean squared error). LoGra with the identity Hessian: cache a loader, attribute any test loader. The mean over the draws of the squared distance of a
score from the exact one, the inner product of the samples' gradients summed over the layers, is the sum over the layers of `spread k X Y`, whatever the batches. -/
theorem C235_logra (hk : 0 < k) (hL : 0 < L) (spec spec' : Loader) (train test : List (List ((l : Fin L) → Factors ℝ (din l) (dout l))))
    (hs : Served spec train) (hne : train ≠ []) (ht : test.flatten ≠ []) (damping : Option ℝ) (again : Data ℝ fun _ : Fin L => k * k) :
    ∃ M : (Noise din dout k → ℝ) → Mat ℝ,
      (∀ G, ∃ st, cache .identity damping (St.new ℝ _ none) (lograData G spec train) = (st, .ok ()) ∧
        (attribute' .identity damping st again (lograData G spec' test)).2 = .ok (M G)) ∧
      ∀ (i j : ℕ) (f g : (l : Fin L) → Factors ℝ (din l) (dout l)), train.flatten[i]? = some f → test.flatten[j]? = some g →
        Integrable (fun G => ((M G).f i j - ∑ l, mdot (gradW (f l)) (gradW (g l))) ^ 2) (Measure.pi fun _ => gaussianReal 0 1) ∧
        ∫ G, ((M G).f i j - ∑ l, mdot (gradW (f l)) (gradW (g l))) ^ 2 ∂(Measure.pi fun _ => gaussianReal 0 1) =
          ∑ l, spread k (gradW (f l)) (gradW (g l)) := by
  obtain ⟨M, h1, h2⟩ := logra_scores hk hL spec spec' train test hs hne ht damping again
  refine ⟨M, h1, fun i j f g hi hj => ?_⟩
  obtain ⟨B, B', hB, hB', h⟩ := h2 i j f g hi hj
  simp only [h]
  exact score_var hk hB hB' f g

/-- **C235** (bound). In every layer the mean squared error is at most `(4/k + 4/k²) |X|² |Y|²`. -/
theorem C235_bound (hk : 0 < k) {a b : ℕ} (X Y : Matrix (Fin a) (Fin b) ℝ) :
    spread k X Y ≤ (4 / k + 4 / (k : ℝ) ^ 2) * (sqSum X * sqSum Y) := by
  have hk' : (0 : ℝ) < k := by exact_mod_cast hk
  have h1 : sqSum (Xᵀ * Y) ≤ sqSum X * sqSum Y := by simpa only [sqSum_transpose] using sqSum_mul_le Xᵀ Y
  have h2 : sqSum (X * Yᵀ) ≤ sqSum X * sqSum Y := by simpa only [sqSum_transpose] using sqSum_mul_le X Yᵀ
  have h3 := (trace_sq_le (Xᵀ * Y)).trans h1
  have h4 := mdot_sq_le X Y
  have e : (4 / k + 4 / (k : ℝ) ^ 2) * (sqSum X * sqSum Y) = 4 * (sqSum X * sqSum Y) / k + 4 * (sqSum X * sqSum Y) / (k : ℝ) ^ 2 := by ring
  rw [spread, e]
  refine add_le_add (div_le_div_of_nonneg_right ?_ hk'.le) (div_le_div_of_nonneg_right ?_ (by positivity))
  · linarith
  · linarith

/-- **C235** (activations without positions). For two-dimensional activations the gradients are `y xᵀ` and `y' x'ᵀ`, and the variance is that of a product of two
independent projected inner products. -/
theorem C235_two (hk : 0 < k) {a b : ℕ} (x x' : Fin a → ℝ) (y y' : Fin b → ℝ) :
    spread k (gradW (.two x y : Factors ℝ a b)) (gradW (.two x' y' : Factors ℝ a b)) =
      ((x ⬝ᵥ x') ^ 2 + ((x ⬝ᵥ x) * (x' ⬝ᵥ x') + (x ⬝ᵥ x') ^ 2) / k) * ((y ⬝ᵥ y') ^ 2 + ((y ⬝ᵥ y) * (y' ⬝ᵥ y') + (y ⬝ᵥ y') ^ 2) / k) -
        (x ⬝ᵥ x') ^ 2 * (y ⬝ᵥ y') ^ 2 := by
  have hk' : (k : ℝ) ≠ 0 := by exact_mod_cast hk.ne'
  have hg : ∀ (u : Fin a → ℝ) (v : Fin b → ℝ), gradW (.two u v : Factors ℝ a b) = vecMulVec v u := fun u v => rfl
  have hsq : ∀ {c d : ℕ} (v : Fin c → ℝ) (u : Fin d → ℝ), sqSum (vecMulVec v u) = (v ⬝ᵥ v) * (u ⬝ᵥ u) := by
    intro c d v u
    simp only [sqSum, vecMulVec_apply, dotProduct, sum_mul_sum]
    exact sum_congr rfl fun i _ => sum_congr rfl fun j _ => by ring
  have hsm : ∀ {c d : ℕ} (r : ℝ) (Z : Matrix (Fin c) (Fin d) ℝ), sqSum (r • Z) = r ^ 2 * sqSum Z := by
    intro c d r Z
    simp only [sqSum, Matrix.smul_apply, smul_eq_mul, mul_pow, mul_sum]
  have hd : mdot (vecMulVec y x) (vecMulVec y' x') = (y ⬝ᵥ y') * (x ⬝ᵥ x') := by
    simp only [mdot, vecMulVec_apply, dotProduct, sum_mul_sum]
    exact sum_congr rfl fun i _ => sum_congr rfl fun j _ => by ring
  have h1 : (vecMulVec y x)ᵀ * vecMulVec y' x' = (y ⬝ᵥ y') • vecMulVec x x' := by
    ext i j
    simp only [mul_apply, transpose_apply, vecMulVec_apply, Matrix.smul_apply, smul_eq_mul, dotProduct, sum_mul]
    exact sum_congr rfl fun _ _ => by ring
  have h2 : vecMulVec y x * (vecMulVec y' x')ᵀ = (x ⬝ᵥ x') • vecMulVec y y' := by
    ext i j
    simp only [mul_apply, transpose_apply, vecMulVec_apply, Matrix.smul_apply, smul_eq_mul, dotProduct, sum_mul]
    exact sum_congr rfl fun _ _ => by ring
  have h3 : (((y ⬝ᵥ y') • vecMulVec x x') * ((y ⬝ᵥ y') • vecMulVec x x')).trace = (y ⬝ᵥ y') ^ 2 * (x ⬝ᵥ x') ^ 2 := by
    simp only [trace, diag_apply, mul_apply, Matrix.smul_apply, vecMulVec_apply, smul_eq_mul, dotProduct]
    rw [pow_two (∑ i, x i * x' i), sum_mul_sum, mul_sum]
    refine sum_congr rfl fun i _ => ?_
    rw [mul_sum]
    exact sum_congr rfl fun j _ => by ring
  rw [hg, hg, spread, h1, h2, hsm, hsm, hsq, hsq, hsq, hsq, hd, h3]
  field_simp
  ring

/-- **C235** (self scores). For two-dimensional activations the self score of a sample has the relative mean squared error `4/k + 4/k²`, whatever the sample and the
size of the layer; one normal projection of the whole gradient to the same `k²` numbers has `2/k²` (`C167_normal`). -/
theorem C235_self (hk : 0 < k) {a b : ℕ} (x : Fin a → ℝ) (y : Fin b → ℝ) :
    spread k (gradW (.two x y : Factors ℝ a b)) (gradW (.two x y : Factors ℝ a b)) = (4 / k + 4 / (k : ℝ) ^ 2) * ((y ⬝ᵥ y) * (x ⬝ᵥ x)) ^ 2 := by
  have hk' : (k : ℝ) ≠ 0 := by exact_mod_cast hk.ne'
  rw [C235_two hk]
  field_simp
  ring

/-- **C235** (all scores). The probability that any of the scores of `n` training and `m` test samples is off by more than `ε` times the norms of the two samples'
gradients is at most `8 n m / (k ε²)`. -/
theorem C235_all_scores (hk : 0 < k) (hL : 0 < L) (spec spec' : Loader) (train test : List (List ((l : Fin L) → Factors ℝ (din l) (dout l))))
    (hs : Served spec train) (hne : train ≠ []) (ht : test.flatten ≠ []) (damping : Option ℝ) (again : Data ℝ fun _ : Fin L => k * k) (ε : ℝ) (hε : 0 < ε) :
    ∃ M : (Noise din dout k → ℝ) → Mat ℝ,
      (∀ G, ∃ st, cache .identity damping (St.new ℝ _ none) (lograData G spec train) = (st, .ok ()) ∧
        (attribute' .identity damping st again (lograData G spec' test)).2 = .ok (M G)) ∧
      (Measure.pi fun _ => gaussianReal 0 1).real {G | ∃ (i j : ℕ) (f g : (l : Fin L) → Factors ℝ (din l) (dout l)),
        train.flatten[i]? = some f ∧ test.flatten[j]? = some g ∧
        ε * (Real.sqrt (∑ l, sqSum (gradW (f l))) * Real.sqrt (∑ l, sqSum (gradW (g l)))) < |(M G).f i j - ∑ l, mdot (gradW (f l)) (gradW (g l))|} ≤
        8 * (train.flatten.length * test.flatten.length) / (k * ε ^ 2) := by
  obtain ⟨M, h1, h2⟩ := C235_logra hk hL spec spec' train test hs hne ht damping again
  refine ⟨M, h1, ?_⟩
  change (gauss (Noise din dout k)).real _ ≤ _
  have hk' : (0 : ℝ) < k := by exact_mod_cast hk
  set bad : Fin train.flatten.length → Fin test.flatten.length → Set (Noise din dout k → ℝ) := fun i j =>
    {G | ε * (Real.sqrt (∑ l, sqSum (gradW (train.flatten[i] l))) * Real.sqrt (∑ l, sqSum (gradW (test.flatten[j] l)))) <
      |(M G).f i j - ∑ l, mdot (gradW (train.flatten[i] l)) (gradW (test.flatten[j] l))|} with hbad
  have hone : ∀ i j, (gauss (Noise din dout k)).real (bad i j) ≤ 8 / (k * ε ^ 2) := by
    intro i j
    obtain ⟨hi, he⟩ := h2 i j (train.flatten[i]) (test.flatten[j]) (by simp) (by simp)
    change Integrable _ (gauss (Noise din dout k)) at hi
    change ∫ G, _ ∂(gauss (Noise din dout k)) = _ at he
    set f := train.flatten[i]
    set g := test.flatten[j]
    set X := ∑ l, sqSum (gradW (f l)) with hX
    set Y := ∑ l, sqSum (gradW (g l)) with hY
    have hX0 : 0 ≤ X := sum_nonneg fun l _ => sqSum_nonneg' _
    have hY0 : 0 ≤ Y := sum_nonneg fun l _ => sqSum_nonneg' _
    have hle : ∑ l, spread k (gradW (f l)) (gradW (g l)) ≤ 8 / k * (X * Y) := by
      have h3 : ∀ l, spread k (gradW (f l)) (gradW (g l)) ≤ 8 / k * (sqSum (gradW (f l)) * Y) := by
        intro l
        refine (C235_bound hk _ _).trans ?_
        have h4 : (4 / k + 4 / (k : ℝ) ^ 2) ≤ 8 / k := by
          have h1k : (1 : ℝ) ≤ k := by exact_mod_cast hk
          have : 4 / (k : ℝ) ^ 2 ≤ 4 / k := div_le_div_of_nonneg_left (by norm_num) hk' (by nlinarith)
          have e : (8 : ℝ) / k = 4 / k + 4 / k := by ring
          rw [e]
          linarith
        have h5 : sqSum (gradW (g l)) ≤ Y := single_le_sum (f := fun l => sqSum (gradW (g l))) (fun l _ => sqSum_nonneg' _) (mem_univ l)
        exact mul_le_mul h4 (mul_le_mul_of_nonneg_left h5 (sqSum_nonneg' _)) (mul_nonneg (sqSum_nonneg' _) (sqSum_nonneg' _)) (by positivity)
      refine (sum_le_sum fun l _ => h3 l).trans (le_of_eq ?_)
      rw [← mul_sum, ← sum_mul]
    by_cases h0 : X * Y = 0
    · -- one of the gradients is zero: the error is zero almost surely
      have hz : ∫ G, ((M G).f i j - ∑ l, mdot (gradW (f l)) (gradW (g l))) ^ 2 ∂(gauss (Noise din dout k)) = 0 := by
        refine le_antisymm ?_ (integral_nonneg fun G => sq_nonneg _)
        rw [he]
        simpa [h0] using hle
      have hae := (integral_eq_zero_iff_of_nonneg (fun G => sq_nonneg _) hi).1 hz
      have hnull : gauss (Noise din dout k) (bad i j) = 0 := by
        rw [← nonpos_iff_eq_zero]
        refine (measure_mono fun G hG => ?_).trans (le_of_eq hae)
        intro hG0
        have h5 : (M G).f i j - ∑ l, mdot (gradW (f l)) (gradW (g l)) = 0 := pow_eq_zero_iff (two_ne_zero) |>.1 hG0
        have h6 : ε * (Real.sqrt X * Real.sqrt Y) < |(M G).f i j - ∑ l, mdot (gradW (f l)) (gradW (g l))| := hG
        rw [h5, abs_zero] at h6
        exact absurd h6 (not_lt.2 (by positivity))
      rw [measureReal_def, hnull]
      simp
      positivity
    · have hXY : 0 < X * Y := lt_of_le_of_ne (mul_nonneg hX0 hY0) (Ne.symm h0)
      have hmk := mul_meas_ge_le_integral_of_nonneg (μ := gauss (Noise din dout k)) (Filter.Eventually.of_forall fun G => sq_nonneg _) hi (ε ^ 2 * (X * Y))
      rw [he] at hmk
      have hsub : (gauss (Noise din dout k)).real (bad i j) ≤ (gauss (Noise din dout k)).real {G | ε ^ 2 * (X * Y) ≤
          ((M G).f i j - ∑ l, mdot (gradW (f l)) (gradW (g l))) ^ 2} := by
        refine measureReal_mono (fun G hG => ?_)
        have h1 : (ε * (Real.sqrt X * Real.sqrt Y)) ^ 2 = ε ^ 2 * (X * Y) := by
          rw [mul_pow, mul_pow, Real.sq_sqrt hX0, Real.sq_sqrt hY0]
        rw [Set.mem_ofPred_eq, ← h1, ← sq_abs ((M G).f i j - _)]
        exact pow_le_pow_left₀ (by positivity) (le_of_lt hG) 2
      refine hsub.trans ?_
      rw [le_div_iff₀ (by positivity)]
      have h3 := hmk.trans hle
      rw [div_mul_eq_mul_div, le_div_iff₀ hk'] at h3
      nlinarith [h3, hXY]
  have hcover : {G : Noise din dout k → ℝ | ∃ (i j : ℕ) (f g : (l : Fin L) → Factors ℝ (din l) (dout l)),
        train.flatten[i]? = some f ∧ test.flatten[j]? = some g ∧
        ε * (Real.sqrt (∑ l, sqSum (gradW (f l))) * Real.sqrt (∑ l, sqSum (gradW (g l)))) < |(M G).f i j - ∑ l, mdot (gradW (f l)) (gradW (g l))|} ⊆
      ⋃ q : Fin train.flatten.length × Fin test.flatten.length, bad q.1 q.2 := by
    rintro G ⟨i, j, f, g, hi, hj, h⟩
    obtain ⟨hi', rfl⟩ := List.getElem?_eq_some_iff.1 hi
    obtain ⟨hj', rfl⟩ := List.getElem?_eq_some_iff.1 hj
    exact Set.mem_iUnion.2 ⟨(⟨i, hi'⟩, ⟨j, hj'⟩), h⟩
  refine (measureReal_mono hcover).trans ((measureReal_iUnion_fintype_le _).trans ((sum_le_sum fun q _ => hone q.1 q.2).trans (le_of_eq ?_)))
  simp only [sum_const, card_univ, Fintype.card_prod, Fintype.card_fin, nsmul_eq_mul]
  push_cast
  ring

/-! ### Concrete cases -/

/-- The setting of `exTrain` and `exTest` (C168): the first training gradient is `(3, 6)`, the test gradient `(1, 2)`; with `k = 1` the mean squared error of the
score 15 is 1800, eight times its square. -/
example : spread 1 (gradW (.two ![1, 2] ![3] : Factors ℝ 2 1)) (gradW (.three [(![1, 0], ![1]), (![0, 1], ![2])] : Factors ℝ 2 1)) = 1800 := by
  have h1 : gradW (.two ![1, 2] ![3] : Factors ℝ 2 1) = !![3, 6] := by
    ext o i
    fin_cases o; fin_cases i <;> simp [gradW]; norm_num
  have h2 : gradW (.three [(![1, 0], ![1]), (![0, 1], ![2])] : Factors ℝ 2 1) = !![1, 2] := by
    ext o i
    fin_cases o; fin_cases i <;> simp [gradW]
  rw [h1, h2]
  simp [spread, sqSum, mdot, trace, Matrix.mul_apply, Fin.sum_univ_two]
  norm_num

/-- The default `proj_dim_per_layer = 4096`, `k = 64`: the relative mean squared error of a self score is `65/1024`; a normal projection to 4096 numbers has
`1/2048`. -/
example : (4 / (64 : ℕ) + 4 / ((64 : ℕ) : ℝ) ^ 2) = 65 / 1024 ∧ (2 : ℝ) / 4096 = 1 / 2048 := by norm_num

end Verif.BlockIF
