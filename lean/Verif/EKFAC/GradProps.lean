import Verif.EKFAC.GradModel
import Verif.EKFAC.OptimalProps
import Mathlib.Analysis.Calculus.FDeriv.Add
import Mathlib.Analysis.Calculus.FDeriv.Mul
import Mathlib.Analysis.Calculus.FDeriv.Pi
import Mathlib.Analysis.Calculus.FDeriv.Comp
import Mathlib.Analysis.Calculus.FDeriv.Linear
import Mathlib.Analysis.Calculus.FDeriv.Pow
import Mathlib.Topology.Algebra.Module.FiniteDimension

/-!
# C178: what EK-FAC scores are, in terms of derivatives

`T` is the target value of one sample as a function of the weights of all selected layers.  The specification uses only derivatives of `T` and of the
loss, means over samples and linear systems.
-/

namespace Verif.EKFAC

open Matrix

variable {S : Type} {p q : ℕ}

/-! ### Specification -/

/-- The entry `(i, j)` of a gradient in the stored bases. -/
def rotated (qa : Matrix (Fin p) (Fin p) ℝ) (qs : Matrix (Fin q) (Fin q) ℝ) (G : Matrix (Fin q) (Fin p) ℝ) (i : Fin q) (j : Fin p) : ℝ :=
  ∑ r, ∑ c, qs i r * qa j c * G r c

/-- The empirical Fisher matrix of these gradients, applied to `X`: the mean of `G ⟨G, X⟩`. -/
noncomputable def fisherApply (gs : List (Matrix (Fin q) (Fin p) ℝ)) (X : Matrix (Fin q) (Fin p) ℝ) (i : Fin q) (j : Fin p) : ℝ :=
  (gs.map fun G => G i j * ∑ r, ∑ c, G r c * X r c).sum / (gs.length : ℝ)

/-! ### Helpers: derivatives -/

theorem outGrad_scaled {B : ℕ} (r : Fin B → (Fin q → ℝ) → ℝ) (z : Fin B → Fin q → ℝ) (c : ℝ) (hr : ∀ k, DifferentiableAt ℝ (r k) (z k)) (k : Fin B) :
    outGrad (fun z => (∑ k, r k (z k)) * c) z k = c • Attr.gradAt (r k) (z k) := by
  have h : HasFDerivAt (fun z : Fin B → Fin q → ℝ => (∑ k, r k (z k)) * c)
      (c • ∑ k, (fderiv ℝ (r k) (z k)).comp (ContinuousLinearMap.proj k)) z := by
    have h1 : ∀ k : Fin B, HasFDerivAt (fun z : Fin B → Fin q → ℝ => r k (z k)) ((fderiv ℝ (r k) (z k)).comp (ContinuousLinearMap.proj k)) z := by
      intro k
      have := (hr k).hasFDerivAt.comp z (ContinuousLinearMap.proj (R := ℝ) (φ := fun _ : Fin B => Fin q → ℝ) k).hasFDerivAt
      exact this
    exact (HasFDerivAt.fun_sum fun k _ => h1 k).mul_const c
  funext i
  unfold outGrad
  rw [h.fderiv]
  simp only [_root_.smul_apply, _root_.sum_apply, ContinuousLinearMap.comp_apply, ContinuousLinearMap.proj_apply, Pi.smul_apply,
    smul_eq_mul, Attr.gradAt]
  congr 1
  rw [Finset.sum_eq_single k]
  · rw [Pi.single_eq_same]
  · intro m _ hm
    rw [Pi.single_eq_of_ne hm, map_zero]
  · intro h; exact absurd (Finset.mem_univ k) h

theorem weightGrad_layer (r : (Fin q → ℝ) → ℝ) (a : Fin p → ℝ) (W : Fin q → Fin p → ℝ) (hr : DifferentiableAt ℝ r (layerOut W a)) :
    weightGrad (fun V => r (layerOut V a)) W = vecMulVec (Attr.gradAt r (layerOut W a)) a := by
  let lin : (Fin q → Fin p → ℝ) →ₗ[ℝ] (Fin q → ℝ) :=
    { toFun := fun V => layerOut V a
      map_add' := fun V V' => by
        funext i
        simp only [layerOut, Pi.add_apply, add_mul, Finset.sum_add_distrib]
      map_smul' := fun c V => by
        funext i
        simp only [layerOut, Pi.smul_apply, smul_eq_mul, mul_assoc, Finset.mul_sum, RingHom.id_apply] }
  have hl : HasFDerivAt (fun V => layerOut V a) (LinearMap.toContinuousLinearMap lin) W := (LinearMap.toContinuousLinearMap lin).hasFDerivAt
  have h := hr.hasFDerivAt.comp W hl
  ext i j
  unfold weightGrad
  rw [Matrix.of_apply, vecMulVec_apply]
  have h' : fderiv ℝ (fun V => r (layerOut V a)) W = (fderiv ℝ r (layerOut W a)).comp (LinearMap.toContinuousLinearMap lin) := h.fderiv
  rw [h', ContinuousLinearMap.comp_apply]
  have e : (LinearMap.toContinuousLinearMap lin) (Pi.single i (Pi.single j 1)) = a j • (Pi.single i 1 : Fin q → ℝ) := by
    funext m
    change layerOut (Pi.single i (Pi.single j 1)) a m = _
    unfold layerOut
    by_cases hm : m = i
    · subst hm
      simp [Pi.single_apply]
    · simp [Pi.single_eq_of_ne hm]
  rw [e, map_smul, smul_eq_mul, mul_comm]
  rfl

theorem record_mean (rest : S → (Fin q → ℝ) → ℝ) (inp : S → Fin p → ℝ) (W : Fin q → Fin p → ℝ) (b : List S)
    (hd : ∀ s ∈ b, DifferentiableAt ℝ (rest s) (layerOut W (inp s))) :
    recordBatch .mean rest inp W b = b.map fun s => (inp s, Attr.gradAt (rest s) (layerOut W (inp s))) := by
  apply List.ext_getElem
  · simp [recordBatch]
  · intro k h1 h2
    have hk : k < b.length := by simpa [recordBatch] using h1
    have hb : (b.length : ℝ) ≠ 0 := by
      have : 0 < b.length := by omega
      exact_mod_cast this.ne'
    have e : (fun z : Fin b.length → Fin q → ℝ => batchTarget .mean rest b z * (b.length : ℝ)) =
        fun z => (∑ k, (fun k : Fin b.length => rest b[k]) k (z k)) * 1 := by
      funext z
      simp only [batchTarget]
      rw [div_mul_cancel₀ _ hb, mul_one]
    have h := outGrad_scaled (fun k : Fin b.length => rest b[k]) (fun k => layerOut W (inp b[k])) 1 (fun k => hd _ (List.getElem_mem _)) ⟨k, hk⟩
    rw [← e, one_smul] at h
    simp only [recordBatch, List.getElem_ofFn, List.getElem_map]
    exact Prod.ext rfl h

theorem record_sum (rest : S → (Fin q → ℝ) → ℝ) (inp : S → Fin p → ℝ) (W : Fin q → Fin p → ℝ) (b : List S)
    (hd : ∀ s ∈ b, DifferentiableAt ℝ (rest s) (layerOut W (inp s))) :
    recordBatch .sum rest inp W b = b.map fun s => (inp s, (b.length : ℝ) • Attr.gradAt (rest s) (layerOut W (inp s))) := by
  apply List.ext_getElem
  · simp [recordBatch]
  · intro k h1 h2
    have e : (fun z : Fin b.length → Fin q → ℝ => batchTarget .sum rest b z * (b.length : ℝ)) =
        fun z => (∑ k, (fun k : Fin b.length => rest b[k]) k (z k)) * (b.length : ℝ) := by
      funext z
      simp only [batchTarget]
    have hk : k < b.length := by simpa [recordBatch] using h1
    have h := outGrad_scaled (fun k : Fin b.length => rest b[k]) (fun k => layerOut W (inp b[k])) (b.length : ℝ) (fun k => hd _ (List.getElem_mem _)) ⟨k, hk⟩
    rw [← e] at h
    simp only [recordBatch, List.getElem_ofFn, List.getElem_map]
    exact Prod.ext rfl h

/-! ### Helpers: algebra -/

theorem rotated_outer (qa : Matrix (Fin p) (Fin p) ℝ) (qs : Matrix (Fin q) (Fin q) ℝ) (d : Fin q → ℝ) (a : Fin p → ℝ) (i : Fin q) (j : Fin p) :
    rotated qa qs (vecMulVec d a) i j = (∑ k, qs i k * d k) * (∑ k, qa j k * a k) := by
  unfold rotated
  rw [Finset.sum_mul_sum]
  refine Finset.sum_congr rfl fun r _ => Finset.sum_congr rfl fun c _ => ?_
  rw [vecMulVec_apply]
  ring

theorem visited_map {α β : Type} (f : α → β) (m : Option ℕ) (bs : List α) : visited m (bs.map f) = (visited m bs).map f := by
  unfold visited
  rw [List.length_map]
  generalize m.getD bs.length = k
  cases k with
  | zero => rfl
  | succ k => simp [List.map_take]

/-- The rotated Fisher matrix, entry by entry. -/
theorem rotated_fisher (qa : Matrix (Fin p) (Fin p) ℝ) (qs : Matrix (Fin q) (Fin q) ℝ) (xs : List ((Fin p → ℝ) × (Fin q → ℝ)))
    (i i' : Fin q) (j j' : Fin p) :
    (kronBasis qa qs * fisherMat xs * (kronBasis qa qs)ᵀ) (i, j) (i', j') =
      (xs.map fun x => rotated qa qs (vecMulVec x.2 x.1) i j * rotated qa qs (vecMulVec x.2 x.1) i' j').sum / (xs.length : ℝ) := by
  have h1 : ∀ (x : (Fin p → ℝ) × (Fin q → ℝ)) (i : Fin q) (j : Fin p), rotated qa qs (vecMulVec x.2 x.1) i j =
      ∑ u : Fin q × Fin p, kronBasis qa qs (i, j) u * (x.2 u.1 * x.1 u.2) := by
    intro x i j
    rw [Fintype.sum_prod_type]
    rfl
  simp only [h1]
  rw [Matrix.mul_apply]
  simp only [Matrix.mul_apply, Matrix.transpose_apply]
  generalize kronBasis qa qs (i, j) = U
  generalize kronBasis qa qs (i', j') = U'
  have h2 : ∀ l : List ((Fin p → ℝ) × (Fin q → ℝ)),
      (l.map (fun x => (∑ u : Fin q × Fin p, U u * (x.2 u.1 * x.1 u.2)) * ∑ u : Fin q × Fin p, U' u * (x.2 u.1 * x.1 u.2))).sum =
      ∑ w : Fin q × Fin p, (∑ u : Fin q × Fin p,
        U u * (l.map (fun x => (x.2 u.1 * x.1 u.2) * (x.2 w.1 * x.1 w.2))).sum) * U' w := by
    intro l
    induction l with
    | nil => simp
    | cons x l ih =>
      simp only [List.map_cons, List.sum_cons, ih, mul_add, Finset.sum_add_distrib, add_mul]
      congr 1
      rw [Finset.sum_mul_sum, Finset.sum_comm]
      refine Finset.sum_congr rfl fun w _ => ?_
      rw [Finset.sum_mul]
      refine Finset.sum_congr rfl fun u _ => by ring
  rw [h2, Finset.sum_div]
  refine Finset.sum_congr rfl fun w _ => ?_
  rw [Finset.sum_mul, Finset.sum_mul, Finset.sum_div]
  refine Finset.sum_congr rfl fun u _ => ?_
  simp only [fisherMat, Matrix.of_apply]
  ring

theorem fisher_apply (xs : List ((Fin p → ℝ) × (Fin q → ℝ))) (X : Matrix (Fin q) (Fin p) ℝ) (i : Fin q) (j : Fin p) :
    ∑ u : Fin q × Fin p, fisherMat xs (i, j) u * X u.1 u.2 = fisherApply (xs.map fun x => vecMulVec x.2 x.1) X i j := by
  unfold fisherApply
  rw [List.length_map, List.map_map]
  have h2 : ∀ l : List ((Fin p → ℝ) × (Fin q → ℝ)), (l.map ((fun G : Matrix (Fin q) (Fin p) ℝ => G i j * ∑ r, ∑ c, G r c * X r c) ∘ fun x => vecMulVec x.2 x.1)).sum =
      ∑ u : Fin q × Fin p, (l.map fun x => x.2 i * x.1 j * (x.2 u.1 * x.1 u.2)).sum * X u.1 u.2 := by
    intro l
    induction l with
    | nil => simp
    | cons x l ih =>
      simp only [List.map_cons, List.sum_cons, add_mul, Finset.sum_add_distrib] at ih ⊢
      rw [ih]
      congr 1
      simp only [Function.comp, vecMulVec_apply]
      rw [Fintype.sum_prod_type, Finset.mul_sum]
      refine Finset.sum_congr rfl fun r _ => ?_
      rw [Finset.mul_sum]
      exact Finset.sum_congr rfl fun c _ => by ring
  rw [h2, Finset.sum_div]
  refine Finset.sum_congr rfl fun u _ => ?_
  simp only [fisherMat, Matrix.of_apply]
  ring

variable {L : ℕ} {din dout : Fin L → ℕ}

/-- The target value of a sample depends on the weights of layer `l` through one use of the layer: `inp s` enters it, `rest s` is what follows. -/
def UsedOnce (T : Weights din dout → S → ℝ) (W : Weights din dout) (l : Fin L) (inp : S → Fin (din l) → ℝ) (rest : S → (Fin (dout l) → ℝ) → ℝ) : Prop :=
  ∀ s V, T (Function.update W l V) s = rest s (layerOut V (inp s))

theorem blockGrad_eq {T : Weights din dout → S → ℝ} {W : Weights din dout} {l : Fin L} {inp : S → Fin (din l) → ℝ} {rest : S → (Fin (dout l) → ℝ) → ℝ}
    (h : UsedOnce T W l inp rest) (s : S) (hd : DifferentiableAt ℝ (rest s) (layerOut (W l) (inp s))) :
    blockGrad (fun w => T w s) W l = vecMulVec (Attr.gradAt (rest s) (layerOut (W l) (inp s))) (inp s) := by
  unfold blockGrad
  simp only [h s]
  exact weightGrad_layer (rest s) (inp s) (W l) hd

/-! ### C178 -/

/-- **C178** (eigenvalues). If the target function averages over the batch, the estimated eigenvalue for the direction `(i, j)` is the mean, over the
samples of the visited batches, of the square of that entry of the sample's gradient in the stored bases; batch sizes do not matter. -/
theorem C178_eigenvalues (T : Weights din dout → S → ℝ) (W : Weights din dout) (l : Fin L) (inp : S → Fin (din l) → ℝ)
    (rest : S → (Fin (dout l) → ℝ) → ℝ) (h1 : UsedOnce T W l inp rest) (qa : Matrix (Fin (din l)) (Fin (din l)) ℝ) (qs : Matrix (Fin (dout l)) (Fin (dout l)) ℝ)
    (bs : List (List S)) (maxIter : Option ℕ) (hne : visited maxIter bs ≠ []) (hpos : ∀ b ∈ visited maxIter bs, b ≠ [])
    (hd : ∀ s ∈ (visited maxIter bs).flatten, DifferentiableAt ℝ (rest s) (layerOut (W l) (inp s))) :
    ∃ lam, lambdaOf .mean rest inp (W l) qa qs bs maxIter = some lam ∧ ∀ i j, lam i j =
      ((visited maxIter bs).flatten.map fun s => rotated qa qs (blockGrad (fun w => T w s) W l) i j ^ 2).sum / ((visited maxIter bs).flatten.length : ℝ) := by
  have hv : visited maxIter (bs.map (recordBatch .mean rest inp (W l))) =
      (visited maxIter bs).map fun b => b.map fun s => (inp s, Attr.gradAt (rest s) (layerOut (W l) (inp s))) := by
    rw [visited_map]
    exact List.map_congr_left fun b hb => record_mean rest inp (W l) b fun s hs => hd s (List.mem_flatten.2 ⟨b, hb, hs⟩)
  obtain ⟨lam, e1, e2⟩ := C19_lambda_pooled qa qs (bs.map (recordBatch .mean rest inp (W l))) maxIter (by rw [hv]; simpa using hne) (by
    rw [hv]
    intro b hb
    obtain ⟨b0, h0, rfl⟩ := List.mem_map.1 hb
    simpa using hpos b0 h0)
  refine ⟨lam, e1, fun i j => ?_⟩
  rw [e2, hv, ← List.map_flatten, List.map_map, List.length_map]
  congr 2
  refine List.map_congr_left fun s hs => ?_
  simp only [Function.comp]
  rw [blockGrad_eq h1 s (hd s hs), rotated_outer]

/-- **C178** (a target function that sums). Then each sample's square is weighted with the square of the size of its batch, so the eigenvalues depend on
how the data are batched. -/
theorem C178_summed (T : Weights din dout → S → ℝ) (W : Weights din dout) (l : Fin L) (inp : S → Fin (din l) → ℝ)
    (rest : S → (Fin (dout l) → ℝ) → ℝ) (h1 : UsedOnce T W l inp rest) (qa : Matrix (Fin (din l)) (Fin (din l)) ℝ) (qs : Matrix (Fin (dout l)) (Fin (dout l)) ℝ)
    (bs : List (List S)) (maxIter : Option ℕ) (hne : visited maxIter bs ≠ []) (hpos : ∀ b ∈ visited maxIter bs, b ≠ [])
    (hd : ∀ s ∈ (visited maxIter bs).flatten, DifferentiableAt ℝ (rest s) (layerOut (W l) (inp s))) :
    ∃ lam, lambdaOf .sum rest inp (W l) qa qs bs maxIter = some lam ∧ ∀ i j, lam i j =
      ((visited maxIter bs).map fun b => (b.length : ℝ) ^ 2 * (b.map fun s => rotated qa qs (blockGrad (fun w => T w s) W l) i j ^ 2).sum).sum /
        ((visited maxIter bs).flatten.length : ℝ) := by
  have hv : visited maxIter (bs.map (recordBatch .sum rest inp (W l))) =
      (visited maxIter bs).map fun b => b.map fun s => (inp s, (b.length : ℝ) • Attr.gradAt (rest s) (layerOut (W l) (inp s))) := by
    rw [visited_map]
    exact List.map_congr_left fun b hb => record_sum rest inp (W l) b fun s hs => hd s (List.mem_flatten.2 ⟨b, hb, hs⟩)
  obtain ⟨lam, e1, e2⟩ := C19_lambda_pooled qa qs (bs.map (recordBatch .sum rest inp (W l))) maxIter (by rw [hv]; simpa using hne) (by
    rw [hv]
    intro b hb
    obtain ⟨b0, h0, rfl⟩ := List.mem_map.1 hb
    simpa using hpos b0 h0)
  refine ⟨lam, e1, fun i j => ?_⟩
  rw [e2, hv]
  have hlen : (((visited maxIter bs).map fun b => b.map fun s => (inp s, (b.length : ℝ) • Attr.gradAt (rest s) (layerOut (W l) (inp s)))).flatten.length : ℝ) =
      ((visited maxIter bs).flatten.length : ℝ) := by
    congr 1
    rw [List.length_flatten, List.length_flatten, List.map_map]
    congr 1
    exact List.map_congr_left fun b _ => by simp
  rw [hlen, List.map_flatten, List.sum_flatten, List.map_map, List.map_map]
  congr 2
  refine List.map_congr_left fun b hb => ?_
  simp only [Function.comp, List.map_map]
  rw [← List.sum_map_mul_left]
  congr 1
  refine List.map_congr_left fun s hs => ?_
  simp only [Function.comp]
  rw [blockGrad_eq h1 s (hd s (List.mem_flatten.2 ⟨b, hb, hs⟩)), rotated_outer]
  simp only [Pi.smul_apply, smul_eq_mul]
  have : ∑ k, qs i k * ((b.length : ℝ) * Attr.gradAt (rest s) (layerOut (W l) (inp s)) k) =
      (b.length : ℝ) * ∑ k, qs i k * Attr.gradAt (rest s) (layerOut (W l) (inp s)) k := by
    rw [Finset.mul_sum]
    exact Finset.sum_congr rfl fun k _ => by ring
  rw [this]
  ring

/-- **C178** (scores). With positive damping the score is finite: it is the product of the training sample's loss gradient with the solutions `X l` of
the damped systems for the test sample's target gradient; the matrix of a system has the stored bases' directions as eigenvectors. -/
theorem C178_scores (qa : (l : Fin L) → Matrix (Fin (din l)) (Fin (din l)) ℝ) (qs : (l : Fin L) → Matrix (Fin (dout l)) (Fin (dout l)) ℝ)
    (ha : ∀ l, qa l * (qa l)ᵀ = 1) (hs : ∀ l, qs l * (qs l)ᵀ = 1) (lam : (l : Fin L) → Matrix (Fin (dout l)) (Fin (din l)) ℝ) (hlam : ∀ l i j, 0 ≤ lam l i j)
    (δ : ℝ) (hδ : 0 < δ) (lossGrad targetGrad : (l : Fin L) → Matrix (Fin (dout l)) (Fin (din l)) ℝ) :
    ∃ X : (l : Fin L) → Matrix (Fin (dout l)) (Fin (din l)) ℝ,
      ekfacScore qa qs lam δ lossGrad targetGrad = some (∑ l, ∑ i, ∑ j, lossGrad l i j * X l i j) ∧
      ∀ l (Y : Matrix (Fin (dout l)) (Fin (din l)) ℝ),
        (∀ i j, (∑ u : Fin (dout l) × Fin (din l), kronDiag (qa l) (qs l) (lam l) (i, j) u * Y u.1 u.2) + δ * Y i j = targetGrad l i j) ↔ Y = X l := by
  have h : ∀ l, ∃ X, ifvp (qa l) (qs l) (lam l) δ (targetGrad l) = some X ∧ ∀ Y : Matrix (Fin (dout l)) (Fin (din l)) ℝ,
      (∀ i j, (∑ u : Fin (dout l) × Fin (din l), kronDiag (qa l) (qs l) (lam l) (i, j) u * Y u.1 u.2) + δ * Y i j = targetGrad l i j) ↔ Y = X := by
    intro l
    obtain ⟨X, h3, h4⟩ := (C17_ekfac_solves (qa l) (qs l) (lam l) δ (targetGrad l) (ha l) (hs l)).2 fun i j => by have := hlam l i j; linarith
    refine ⟨X, h3, fun Y => ?_⟩
    rw [← h4 Y, ← Matrix.ext_iff]
    simp only [basisOp_entry (qa l) (qs l) (ha l) (hs l)]
  choose X h3 h4 using h
  refine ⟨X, ?_, h4⟩
  unfold ekfacScore
  rw [if_neg (by
    rintro ⟨l, hl⟩
    rw [h3 l] at hl
    cases hl)]
  simp only [h3, Option.getD_some]

/-- **C178** (when the approximation is exact). If in each layer different entries of the samples' target gradients in the stored bases are uncorrelated,
then with positive damping the scores are those of the exact damped empirical Fisher matrix of the target, layer by layer. -/
theorem C178_exact (T : Weights din dout → S → ℝ) (W : Weights din dout) (inp : (l : Fin L) → S → Fin (din l) → ℝ)
    (rest : (l : Fin L) → S → (Fin (dout l) → ℝ) → ℝ) (h1 : ∀ l, UsedOnce T W l (inp l) (rest l))
    (qa : (l : Fin L) → Matrix (Fin (din l)) (Fin (din l)) ℝ) (qs : (l : Fin L) → Matrix (Fin (dout l)) (Fin (dout l)) ℝ)
    (ha : ∀ l, qa l * (qa l)ᵀ = 1) (hs : ∀ l, qs l * (qs l)ᵀ = 1) (bs : List (List S)) (maxIter : Option ℕ) (hne : visited maxIter bs ≠ [])
    (hpos : ∀ b ∈ visited maxIter bs, b ≠ [])
    (hd : ∀ l, ∀ s ∈ (visited maxIter bs).flatten, DifferentiableAt ℝ (rest l s) (layerOut (W l) (inp l s)))
    (hunc : ∀ l i j i' j', (i, j) ≠ (i', j') → ((visited maxIter bs).flatten.map fun s =>
      rotated (qa l) (qs l) (blockGrad (fun w => T w s) W l) i j * rotated (qa l) (qs l) (blockGrad (fun w => T w s) W l) i' j').sum = 0)
    (δ : ℝ) (hδ : 0 < δ) (lossGrad targetGrad : (l : Fin L) → Matrix (Fin (dout l)) (Fin (din l)) ℝ) :
    ∃ lam : (l : Fin L) → Matrix (Fin (dout l)) (Fin (din l)) ℝ, (∀ l, lambdaOf .mean (rest l) (inp l) (W l) (qa l) (qs l) bs maxIter = some (lam l)) ∧
      ∃ X : (l : Fin L) → Matrix (Fin (dout l)) (Fin (din l)) ℝ,
        ekfacScore qa qs lam δ lossGrad targetGrad = some (∑ l, ∑ i, ∑ j, lossGrad l i j * X l i j) ∧
        ∀ l (Y : Matrix (Fin (dout l)) (Fin (din l)) ℝ),
          (∀ i j, fisherApply ((visited maxIter bs).flatten.map fun s => blockGrad (fun w => T w s) W l) Y i j + δ * Y i j = targetGrad l i j) ↔ Y = X l := by
  choose lam e1 e2 using fun l => C178_eigenvalues T W l (inp l) (rest l) (h1 l) (qa l) (qs l) bs maxIter hne hpos (hd l)
  refine ⟨lam, e1, ?_⟩
  obtain ⟨X, f1, f2⟩ := C178_scores qa qs ha hs lam (fun l i j => by
    rw [e2]
    refine div_nonneg (List.sum_nonneg fun y hy => ?_) (Nat.cast_nonneg _)
    obtain ⟨s, -, rfl⟩ := List.mem_map.1 hy
    exact sq_nonneg _) δ hδ lossGrad targetGrad
  refine ⟨X, f1, fun l Y => ?_⟩
  rw [← f2 l Y]
  set xs : List ((Fin (din l) → ℝ) × (Fin (dout l) → ℝ)) :=
    (visited maxIter bs).flatten.map fun s => (inp l s, Attr.gradAt (rest l s) (layerOut (W l) (inp l s))) with hxs
  have hg : (visited maxIter bs).flatten.map (fun s => blockGrad (fun w => T w s) W l) = xs.map fun x => vecMulVec x.2 x.1 := by
    rw [hxs, List.map_map]
    exact List.map_congr_left fun s hs' => blockGrad_eq (h1 l) s (hd l s hs')
  have hF : fisherMat xs = kronDiag (qa l) (qs l) (lam l) := by
    have ho := kronBasis_orth (qa l) (qs l) (ha l) (hs l)
    have hR : kronBasis (qa l) (qs l) * fisherMat xs * (kronBasis (qa l) (qs l))ᵀ = Matrix.diagonal (fun u => lam l u.1 u.2) := by
      ext ⟨i, j⟩ ⟨i', j'⟩
      rw [rotated_fisher]
      have hprod : ∀ i j i' j', (xs.map fun x => rotated (qa l) (qs l) (vecMulVec x.2 x.1) i j * rotated (qa l) (qs l) (vecMulVec x.2 x.1) i' j').sum =
          ((visited maxIter bs).flatten.map fun s => rotated (qa l) (qs l) (blockGrad (fun w => T w s) W l) i j *
            rotated (qa l) (qs l) (blockGrad (fun w => T w s) W l) i' j').sum := by
        intro i j i' j'
        rw [hxs, List.map_map]
        congr 1
        refine List.map_congr_left fun s hs' => ?_
        simp only [Function.comp]
        rw [blockGrad_eq (h1 l) s (hd l s hs')]
      rw [hprod]
      by_cases hij : (i, j) = (i', j')
      · obtain ⟨rfl, rfl⟩ := Prod.ext_iff.1 hij
        rw [Matrix.diagonal_apply_eq, e2, hxs, List.length_map]
        simp only [pow_two]
      · rw [Matrix.diagonal_apply_ne _ hij, hunc l i j i' j' hij, zero_div]
    rw [kronDiag_eq, ← hR]
    have ho' : kronBasis (qa l) (qs l) * (kronBasis (qa l) (qs l))ᵀ = 1 := mul_eq_one_comm.1 ho
    calc fisherMat xs = ((kronBasis (qa l) (qs l))ᵀ * kronBasis (qa l) (qs l)) * fisherMat xs * ((kronBasis (qa l) (qs l))ᵀ * kronBasis (qa l) (qs l)) := by
          rw [ho, Matrix.one_mul, Matrix.mul_one]
      _ = _ := by simp only [Matrix.mul_assoc]
  rw [← hF, hg]
  simp only [fisher_apply]

/-! ### Non-vacuity -/

/-- Two samples of a single layer with two inputs and one output, target `z²/2`; weights `(1, 1)`, inputs the unit vectors. -/
example : ∃ (T : Weights (L := 1) (fun _ => 2) (fun _ => 1) → Fin 2 → ℝ) (W : Weights (L := 1) (fun _ => 2) (fun _ => 1)),
    (∀ l, UsedOnce T W l (fun s => Pi.single s 1) (fun _ z => z 0 ^ 2 / 2)) ∧
    (∀ z : Fin 1 → ℝ, DifferentiableAt ℝ (fun z : Fin 1 → ℝ => z 0 ^ 2 / 2) z) ∧
    (∀ i j i' j', (i, j) ≠ (i', j') → ([0, 1].map fun s : Fin 2 => rotated 1 1 (blockGrad (fun w => T w s) W 0) i j *
      rotated 1 1 (blockGrad (fun w => T w s) W 0) i' j').sum = 0) ∧ blockGrad (fun w => T w 0) W 0 ≠ 0 := by
  have hfd : ∀ z : Fin 1 → ℝ, HasFDerivAt (fun z : Fin 1 → ℝ => z 0 ^ 2 / 2) (z 0 • (ContinuousLinearMap.proj (R := ℝ) (φ := fun _ : Fin 1 => ℝ) 0)) z := by
    intro z
    have h0 := (ContinuousLinearMap.proj (R := ℝ) (φ := fun _ : Fin 1 => ℝ) 0).hasFDerivAt (x := z)
    have h1 := (h0.mul h0).mul_const (1 / 2 : ℝ)
    refine (h1.congr_of_eventuallyEq (Filter.Eventually.of_forall fun z => ?_)).congr_fderiv ?_
    · simp only [Pi.mul_apply, ContinuousLinearMap.proj_apply]; ring
    · ext v
      simp
      ring
  have hdiff : ∀ z : Fin 1 → ℝ, DifferentiableAt ℝ (fun z : Fin 1 → ℝ => z 0 ^ 2 / 2) z := fun z => (hfd z).differentiableAt
  have hone : ∀ l, UsedOnce (L := 1) (din := fun _ => 2) (dout := fun _ => 1) (fun w (s : Fin 2) => (layerOut (w 0) (Pi.single s 1)) 0 ^ 2 / 2)
      (fun _ _ _ => 1) l (fun s => Pi.single s 1) (fun _ z => z 0 ^ 2 / 2) := by
    intro l s V
    obtain rfl : l = 0 := Subsingleton.elim _ _
    simp
  have hgrad : ∀ s : Fin 2, blockGrad (L := 1) (din := fun _ => 2) (dout := fun _ => 1)
      (fun w => (layerOut (w 0) (Pi.single s 1)) 0 ^ 2 / 2) (fun _ _ _ => 1) 0 = vecMulVec (fun _ => 1) (Pi.single s 1) := by
    intro s
    rw [blockGrad_eq (hone 0) s (hdiff _)]
    congr 1
    funext k
    obtain rfl : k = 0 := Subsingleton.elim _ _
    unfold Attr.gradAt
    rw [(hfd _).fderiv]
    simp [layerOut, Pi.single_apply]
  refine ⟨_, _, hone, hdiff, ?_, ?_⟩
  · intro i j i' j' h
    simp only [hgrad]
    obtain rfl : i = 0 := Subsingleton.elim _ _
    obtain rfl : i' = 0 := Subsingleton.elim _ _
    fin_cases j <;> fin_cases j' <;> simp [rotated_outer, Matrix.one_apply] at h ⊢
  · rw [hgrad 0]
    intro h
    have := congrFun (congrFun h 0) 0
    simp [vecMulVec_apply] at this

end Verif.EKFAC
