import Verif.BlockIF.DampProps

/-!
# Block-projected scores among training samples (property C247)
-/

namespace Verif.BlockIF

open Verif

variable {F : Type} [Field F] [LinearOrder F] [IsStrictOrderedRing F] {L : ℕ} {d : Fin L → ℕ}

/-! ### Helper lemmas -/

omit [LinearOrder F] [IsStrictOrderedRing F] in
theorem inv_swap (δ : F) (l : Fin L) (samples : List (Row F d)) (x y : Fin (d l) → F) :
    ((damped δ l samples)⁻¹).mulVec x ⬝ᵥ y = ((damped δ l samples)⁻¹).mulVec y ⬝ᵥ x := by
  rw [dotProduct_comm, Matrix.dotProduct_mulVec, ← Matrix.mulVec_transpose,
    Matrix.transpose_nonsing_inv, damped_symm]

theorem inv_quad_nonneg {δ : F} (hδ : 0 ≤ δ) (l : Fin L) {samples : List (Row F d)}
    (hdet : (damped δ l samples).det ≠ 0) (v : Fin (d l) → F) :
    0 ≤ ((damped δ l samples)⁻¹).mulVec v ⬝ᵥ v := by
  have hy : (damped δ l samples).mulVec (((damped δ l samples)⁻¹).mulVec v) = v := by
    rw [Matrix.mulVec_mulVec, Matrix.mul_nonsing_inv _ (isUnit_iff_ne_zero.2 hdet),
      Matrix.one_mulVec]
  have h := quad_split δ l samples (((damped δ l samples)⁻¹).mulVec v)
  rw [hy] at h
  rw [h]
  exact add_nonneg (quad_nonneg l samples _) (mul_nonneg (div_nonneg (mul_nonneg hδ
    (trace_meanOuter_nonneg l samples)) (Nat.cast_nonneg _)) (dot_self_nonneg _))

omit [LinearOrder F] [IsStrictOrderedRing F] in
theorem sum_weighted_pairs {n m : ℕ} (A : Matrix (Fin m) (Fin m) F) (g : Fin n → Fin m → F) (c : Fin n → F) :
    ∑ i, ∑ j, c i * c j * (A.mulVec (g i) ⬝ᵥ g j) =
      A.mulVec (∑ i, c i • g i) ⬝ᵥ ∑ j, c j • g j := by
  rw [Matrix.mulVec_sum, sum_dotProduct]
  refine Finset.sum_congr rfl fun i _ => ?_
  rw [dotProduct_sum]
  refine Finset.sum_congr rfl fun j _ => ?_
  rw [Matrix.mulVec_smul, smul_dotProduct, dotProduct_smul, smul_eq_mul, smul_eq_mul, mul_assoc]

/-- The matrix that takes the place of the preconditioner of layer `l`. -/
noncomputable def lay (h : Hessian) (δ : F) (samples : List (Row F d)) (l : Fin L) :
    Matrix (Fin (d l)) (Fin (d l)) F :=
  match h with
  | .identity => 1
  | .efim => (damped δ l samples)⁻¹

omit [LinearOrder F] [IsStrictOrderedRing F] in
theorem preconditioned_lay (h : Hessian) (δ : F) (samples : List (Row F d)) (g : Row F d)
    (l : Fin L) : preconditioned h δ samples g l = (lay h δ samples l).mulVec (g l) := by
  cases h with
  | identity => exact (Matrix.one_mulVec _).symm
  | efim => rfl

/-! ### C247 -/

/-- **C247.** `attribute` with the training samples as test samples gives a symmetric matrix, and
with a damping that is not negative all weighted sums of its entries with products of weights are
non-negative: it is positive semidefinite. -/
theorem C247_kernel (h : Hessian) {damping : Option F} {D : Data F d} (hD : D.WF)
    (hne : D.batches ≠ []) {st : St F d}
    (hok : cache h damping (St.new F d none) D = (st, .ok ()))
    (train test : Data F d) (ht : test.batches.flatten = D.batches.flatten)
    (hn : D.batches.flatten ≠ []) (hd : ∑ l, d l ≠ 0) :
    ∃ M, (attribute' h damping st train test).2 = .ok M ∧ M.r = D.batches.flatten.length ∧
      M.c = D.batches.flatten.length ∧
      (∀ i j, i < M.r → j < M.r → M.f i j = M.f j i) ∧
      (0 ≤ damping.getD (1 / 100000) → ∀ c : Fin D.batches.flatten.length → F,
        0 ≤ ∑ i, ∑ j, c i * c j * M.f (i : ℕ) (j : ℕ)) := by
  obtain ⟨M, h1, h2⟩ := C60_entries h damping hD hne hok train test (by rw [ht]; exact hn) hd
  rw [ht] at h2
  have hdet : h = .efim → ∀ l, (damped (damping.getD (1 / 100000)) l D.batches.flatten).det ≠ 0 :=
    fun he => det_all hn ((C60_succeeds damping hD hne).1 ⟨st, by rw [← he]; exact hok⟩)
  have hr : M.r = D.batches.flatten.length := by rw [h2.r, List.length_map]
  have hf : ∀ i j (hi : i < D.batches.flatten.length) (hj : j < D.batches.flatten.length),
      M.f i j = ∑ l, (lay h (damping.getD (1 / 100000)) D.batches.flatten l).mulVec
        (D.batches.flatten[i] l) ⬝ᵥ D.batches.flatten[j] l := by
    intro i j hi hj
    rw [h2.f i j _ _ (by rw [List.getElem?_map, List.getElem?_eq_getElem hi]; rfl)
      (List.getElem?_eq_getElem hj)]
    refine Finset.sum_congr rfl fun l _ => ?_
    rw [preconditioned_lay]
    rfl
  refine ⟨M, h1, hr, h2.c, ?_, ?_⟩
  · intro i j hi hj
    rw [hr] at hi hj
    rw [hf i j hi hj, hf j i hj hi]
    refine Finset.sum_congr rfl fun l _ => ?_
    cases h with
    | identity =>
      change (1 : Matrix _ _ F).mulVec _ ⬝ᵥ _ = (1 : Matrix _ _ F).mulVec _ ⬝ᵥ _
      rw [Matrix.one_mulVec, Matrix.one_mulVec, dotProduct_comm]
    | efim => exact inv_swap _ l _ _ _
  · intro hδ c
    have : ∑ i, ∑ j, c i * c j * M.f (i : ℕ) (j : ℕ) =
        ∑ l, ∑ i : Fin D.batches.flatten.length, ∑ j : Fin D.batches.flatten.length, c i * c j *
          ((lay h (damping.getD (1 / 100000)) D.batches.flatten l).mulVec
            (D.batches.flatten[i] l) ⬝ᵥ D.batches.flatten[j] l) := by
      refine Eq.trans ?_ Finset.sum_comm
      refine Finset.sum_congr rfl fun i _ => ?_
      refine Eq.trans ?_ Finset.sum_comm
      refine Finset.sum_congr rfl fun j _ => ?_
      rw [hf i j i.2 j.2, Finset.mul_sum]
      rfl
    rw [this]
    refine Finset.sum_nonneg fun l _ => ?_
    rw [sum_weighted_pairs]
    cases h with
    | identity =>
      change 0 ≤ (1 : Matrix _ _ F).mulVec _ ⬝ᵥ _
      rw [Matrix.one_mulVec]
      exact dot_self_nonneg _
    | efim => exact inv_quad_nonneg hδ l (hdet rfl l) _

/-- Samples 5, 10, 15: symmetric scores, and a non-negative sum for the weights 1, -1, 2. -/
example : ∃ st M, cache .efim (some (1 / 2)) (St.new ℚ (fun _ : Fin 1 => 1) none)
      ((Data.of 2 false [one 1, one 2, one 3]).rescale fun _ => 5) = (st, .ok ()) ∧
    (attribute' .efim (some (1 / 2)) st (Data.of 2 false [])
      ((Data.of 2 false [one 1, one 2, one 3]).rescale fun _ => 5)).2 = .ok M ∧
    M.f 0 2 = M.f 2 0 ∧ 0 ≤ ∑ i : Fin 3, ∑ j : Fin 3, ![1, -1, 2] i * ![1, -1, 2] j *
      M.f (i : ℕ) (j : ℕ) := by
  obtain ⟨st, h⟩ := ex_cached 5 (by norm_num)
  obtain ⟨M, h1, h2, _, h4, h5⟩ := C247_kernel .efim (damping := some (1 / 2 : ℚ))
    (rescale_wf (of_wf (bs := 2) (by decide) false [one 1, one 2, one 3]) _) (by decide) h
    (Data.of 2 false []) _ rfl (by decide) (by decide)
  have hr : M.r = 3 := by rw [h2]; rfl
  exact ⟨st, M, h, h1, h4 0 2 (by omega) (by omega), h5 (by norm_num) ![1, -1, 2]⟩

end Verif.BlockIF
