import Verif.EKFAC.Stats
import Verif.EKFAC.Props
import Mathlib.Algebra.BigOperators.Field
import Mathlib.LinearAlgebra.Matrix.NonsingularInverse
import Mathlib.LinearAlgebra.Matrix.Trace
import Mathlib.Data.Real.Basic
import Mathlib.Tactic.Linarith
import Mathlib.Tactic.FinCases

/-!
# C159: the estimated eigenvalues of EK-FAC are the best ones for the stored bases

The empirical Fisher matrix of a layer has one row and column per weight `(output i, input j)`; its entries are the means over the
visited samples of products of the layer gradients `δ_i a_j`.  Given the stored bases, every choice of eigenvalues `M` gives a matrix
that is diagonal in that basis; EK-FAC's estimated `Λ` is the choice closest to the empirical Fisher matrix (sum of squared
differences of the entries), whatever orthogonal bases are stored.
-/

namespace Verif.EKFAC

open Matrix

variable {p q : Nat}

/-- Specification: the empirical Fisher matrix of one layer over samples `(a, δ)`. -/
noncomputable def fisherMat (xs : List ((Fin p → ℝ) × (Fin q → ℝ))) : Matrix (Fin q × Fin p) (Fin q × Fin p) ℝ :=
  Matrix.of fun u w => (xs.map (fun x => (x.2 u.1 * x.1 u.2) * (x.2 w.1 * x.1 w.2))).sum / (xs.length : ℝ)

/-- Specification: the matrix with eigenvalue `M r c` on the (outer product) direction of rows `r` of `Q_S` and `c` of `Q_A`. -/
noncomputable def kronDiag (qa : Matrix (Fin p) (Fin p) ℝ) (qs : Matrix (Fin q) (Fin q) ℝ) (M : Matrix (Fin q) (Fin p) ℝ) :
    Matrix (Fin q × Fin p) (Fin q × Fin p) ℝ :=
  Matrix.of fun u w => ∑ r, ∑ c, M r c * (qs r u.1 * qa c u.2) * (qs r w.1 * qa c w.2)

/-- Specification: sum of squared differences of all entries. -/
noncomputable def distSq {ι : Type} [Fintype ι] (A B : Matrix ι ι ℝ) : ℝ := ∑ u, ∑ w, (A u w - B u w) ^ 2

/-! ### Helpers -/

section Frob
variable {ι : Type} [Fintype ι] [DecidableEq ι]

omit [DecidableEq ι] in
lemma frob_trace (M : Matrix ι ι ℝ) : ∑ u, ∑ w, M u w ^ 2 = (M * Mᵀ).trace := by
  simp only [Matrix.trace, Matrix.diag_apply, Matrix.mul_apply, Matrix.transpose_apply, pow_two]

/-- Rotating with an orthogonal matrix does not change the sum of squares. -/
lemma frob_rotate (U M : Matrix ι ι ℝ) (hU : Uᵀ * U = 1) :
    ∑ u, ∑ w, (U * M * Uᵀ) u w ^ 2 = ∑ u, ∑ w, M u w ^ 2 := by
  rw [frob_trace, frob_trace]
  have e : U * M * Uᵀ * (U * M * Uᵀ)ᵀ = U * (M * Mᵀ) * Uᵀ := by
    simp only [transpose_mul, transpose_transpose]
    calc U * M * Uᵀ * (U * (Mᵀ * Uᵀ)) = U * M * (Uᵀ * U) * Mᵀ * Uᵀ := by simp only [Matrix.mul_assoc]
      _ = _ := by rw [hU]; simp only [Matrix.mul_one, Matrix.mul_assoc]
  rw [e, Matrix.trace_mul_comm, ← Matrix.mul_assoc, hU, Matrix.one_mul]

/-- Distance to a matrix diagonal in the basis of the rows of `U`. -/
lemma dist_diag (U F : Matrix ι ι ℝ) (hU : Uᵀ * U = 1) (d : ι → ℝ) :
    distSq F (Uᵀ * Matrix.diagonal d * U) =
      distSq F (Uᵀ * Matrix.diagonal (fun u => (U * F * Uᵀ) u u) * U) + ∑ u, ((U * F * Uᵀ) u u - d u) ^ 2 := by
  have hU' : U * Uᵀ = 1 := mul_eq_one_comm.1 hU
  have key : ∀ d : ι → ℝ, distSq F (Uᵀ * Matrix.diagonal d * U) =
      ∑ u, ∑ w, ((U * F * Uᵀ) u w - Matrix.diagonal d u w) ^ 2 := by
    intro d
    have h1 := frob_rotate U (F - Uᵀ * Matrix.diagonal d * U) hU
    have h2 : U * (F - Uᵀ * Matrix.diagonal d * U) * Uᵀ = U * F * Uᵀ - Matrix.diagonal d := by
      rw [Matrix.mul_sub, Matrix.sub_mul]
      congr 1
      calc U * (Uᵀ * Matrix.diagonal d * U) * Uᵀ = (U * Uᵀ) * Matrix.diagonal d * (U * Uᵀ) := by
            simp only [Matrix.mul_assoc]
        _ = _ := by rw [hU', Matrix.one_mul, Matrix.mul_one]
    rw [h2] at h1
    exact h1.symm
  rw [key, key, ← Finset.sum_add_distrib]
  refine Finset.sum_congr rfl fun u _ => ?_
  rw [← Finset.add_sum_erase _ _ (Finset.mem_univ u), ← Finset.add_sum_erase (a := u) _ _ (Finset.mem_univ u)]
  have h3 : ∑ x ∈ Finset.univ.erase u, ((U * F * Uᵀ) u x - Matrix.diagonal d u x) ^ 2 =
      ∑ x ∈ Finset.univ.erase u, ((U * F * Uᵀ) u x - Matrix.diagonal (fun u => (U * F * Uᵀ) u u) u x) ^ 2 := by
    refine Finset.sum_congr rfl fun x hx => ?_
    have hne : u ≠ x := (Finset.ne_of_mem_erase hx).symm
    rw [Matrix.diagonal_apply_ne _ hne, Matrix.diagonal_apply_ne _ hne]
  rw [h3]
  simp only [Matrix.diagonal_apply_eq]
  ring

end Frob

/-- The combined basis: row `(r, c)` is the outer product of row `r` of `Q_S` and row `c` of `Q_A`. -/
def kronBasis (qa : Matrix (Fin p) (Fin p) ℝ) (qs : Matrix (Fin q) (Fin q) ℝ) : Matrix (Fin q × Fin p) (Fin q × Fin p) ℝ :=
  Matrix.of fun u w => qs u.1 w.1 * qa u.2 w.2

lemma kronBasis_orth (qa : Matrix (Fin p) (Fin p) ℝ) (qs : Matrix (Fin q) (Fin q) ℝ) (ha : qa * qaᵀ = 1) (hs : qs * qsᵀ = 1) :
    (kronBasis qa qs)ᵀ * kronBasis qa qs = 1 := by
  have ha' : qaᵀ * qa = 1 := mul_eq_one_comm.1 ha
  have hs' : qsᵀ * qs = 1 := mul_eq_one_comm.1 hs
  ext u w
  have e1 := congrFun (congrFun ha' u.2) w.2
  have e2 := congrFun (congrFun hs' u.1) w.1
  simp only [Matrix.mul_apply, Matrix.transpose_apply] at e1 e2
  simp only [Matrix.mul_apply, Matrix.transpose_apply, kronBasis, Matrix.of_apply]
  rw [Fintype.sum_prod_type]
  have : ∀ r c, qs r u.1 * qa c u.2 * (qs r w.1 * qa c w.2) = (qs r u.1 * qs r w.1) * (qa c u.2 * qa c w.2) := by
    intro r c; ring
  simp only [this, ← Finset.mul_sum, ← Finset.sum_mul]
  rw [e1, e2, Matrix.one_apply, Matrix.one_apply, Matrix.one_apply]
  by_cases h1 : u.1 = w.1 <;> by_cases h2 : u.2 = w.2 <;> simp [h1, h2, Prod.ext_iff]

lemma kronDiag_eq (qa : Matrix (Fin p) (Fin p) ℝ) (qs : Matrix (Fin q) (Fin q) ℝ) (M : Matrix (Fin q) (Fin p) ℝ) :
    kronDiag qa qs M = (kronBasis qa qs)ᵀ * Matrix.diagonal (fun u => M u.1 u.2) * kronBasis qa qs := by
  ext u w
  rw [Matrix.mul_apply, Fintype.sum_prod_type]
  simp only [kronDiag, Matrix.of_apply]
  refine Finset.sum_congr rfl fun r _ => Finset.sum_congr rfl fun c _ => ?_
  rw [Matrix.mul_diagonal]
  simp only [kronBasis, Matrix.transpose_apply, Matrix.of_apply]
  ring

/-- The diagonal of the rotated Fisher matrix is the mean of the squared rotated gradients. -/
lemma rotated_diag (qa : Matrix (Fin p) (Fin p) ℝ) (qs : Matrix (Fin q) (Fin q) ℝ) (xs : List ((Fin p → ℝ) × (Fin q → ℝ)))
    (i : Fin q) (j : Fin p) :
    (kronBasis qa qs * fisherMat xs * (kronBasis qa qs)ᵀ) (i, j) (i, j) =
      (xs.map (fun x => ((∑ k, qs i k * x.2 k) * (∑ k, qa j k * x.1 k)) ^ 2)).sum / (xs.length : ℝ) := by
  have h1 : ∀ x : (Fin p → ℝ) × (Fin q → ℝ), (∑ k, qs i k * x.2 k) * (∑ k, qa j k * x.1 k) =
      ∑ u : Fin q × Fin p, kronBasis qa qs (i, j) u * (x.2 u.1 * x.1 u.2) := by
    intro x
    rw [Fintype.sum_prod_type, Finset.sum_mul_sum]
    refine Finset.sum_congr rfl fun r _ => Finset.sum_congr rfl fun c _ => ?_
    simp only [kronBasis, Matrix.of_apply]; ring
  simp only [h1]
  rw [Matrix.mul_apply]
  simp only [Matrix.mul_apply, Matrix.transpose_apply]
  generalize kronBasis qa qs (i, j) = U
  have h2 : ∀ l : List ((Fin p → ℝ) × (Fin q → ℝ)),
      (l.map (fun x => (∑ u : Fin q × Fin p, U u * (x.2 u.1 * x.1 u.2)) ^ 2)).sum =
      ∑ w : Fin q × Fin p, (∑ u : Fin q × Fin p,
        U u * (l.map (fun x => (x.2 u.1 * x.1 u.2) * (x.2 w.1 * x.1 w.2))).sum) * U w := by
    intro l
    induction l with
    | nil => simp
    | cons x l ih =>
      simp only [List.map_cons, List.sum_cons, ih, mul_add, Finset.sum_add_distrib, add_mul]
      congr 1
      rw [pow_two, Finset.sum_mul_sum, Finset.sum_comm]
      refine Finset.sum_congr rfl fun w _ => ?_
      rw [Finset.sum_mul]
      refine Finset.sum_congr rfl fun u _ => by ring
  rw [h2, Finset.sum_div]
  refine Finset.sum_congr rfl fun w _ => ?_
  rw [Finset.sum_mul, Finset.sum_mul, Finset.sum_div]
  refine Finset.sum_congr rfl fun u _ => ?_
  simp only [fisherMat, Matrix.of_apply]
  ring

/-! ### Theorems -/

/-- **C159.** For all orthogonal stored bases and all visited samples, the squared distance of the empirical Fisher matrix to the
matrix with any eigenvalues `M` in the stored basis is the distance for the estimated `Λ` plus the squared distance of `M` to `Λ`. -/
theorem C159_pythagoras (qa : Matrix (Fin p) (Fin p) ℝ) (qs : Matrix (Fin q) (Fin q) ℝ) (ha : qa * qaᵀ = 1) (hs : qs * qsᵀ = 1)
    (bs : List (List ((Fin p → ℝ) × (Fin q → ℝ)))) (maxIter : Option Nat)
    (hne : visited maxIter bs ≠ []) (hpos : ∀ b ∈ visited maxIter bs, b ≠ []) :
    ∃ lam, estimateLambda qa qs bs maxIter = some lam ∧ ∀ M : Matrix (Fin q) (Fin p) ℝ,
      distSq (fisherMat (visited maxIter bs).flatten) (kronDiag qa qs M) =
        distSq (fisherMat (visited maxIter bs).flatten) (kronDiag qa qs lam) + ∑ i, ∑ j, (lam i j - M i j) ^ 2 := by
  obtain ⟨lam, h1, h2⟩ := C19_lambda_pooled qa qs bs maxIter hne hpos
  refine ⟨lam, h1, fun M => ?_⟩
  have hd : ∀ u : Fin q × Fin p, (kronBasis qa qs * fisherMat (visited maxIter bs).flatten *
      (kronBasis qa qs)ᵀ) u u = lam u.1 u.2 := by
    rintro ⟨i, j⟩
    rw [rotated_diag, h2]
  have key := dist_diag (kronBasis qa qs) (fisherMat (visited maxIter bs).flatten)
    (kronBasis_orth qa qs ha hs) (fun u => M u.1 u.2)
  simp only [hd] at key
  rw [Fintype.sum_prod_type] at key
  rw [kronDiag_eq, kronDiag_eq]
  exact key

/-- **C159.** In particular the estimated `Λ` is at least as close as any other eigenvalues, and no other choice is as close; so it is
at least as close as the products `s_i a_j` of the factor eigenvalues (K-FAC). -/
theorem C159_best (qa : Matrix (Fin p) (Fin p) ℝ) (qs : Matrix (Fin q) (Fin q) ℝ) (ha : qa * qaᵀ = 1) (hs : qs * qsᵀ = 1)
    (bs : List (List ((Fin p → ℝ) × (Fin q → ℝ)))) (maxIter : Option Nat)
    (hne : visited maxIter bs ≠ []) (hpos : ∀ b ∈ visited maxIter bs, b ≠ []) (lam : Matrix (Fin q) (Fin p) ℝ)
    (hlam : estimateLambda qa qs bs maxIter = some lam) (M : Matrix (Fin q) (Fin p) ℝ) :
    distSq (fisherMat (visited maxIter bs).flatten) (kronDiag qa qs lam) ≤
      distSq (fisherMat (visited maxIter bs).flatten) (kronDiag qa qs M) ∧
    (distSq (fisherMat (visited maxIter bs).flatten) (kronDiag qa qs M) ≤
      distSq (fisherMat (visited maxIter bs).flatten) (kronDiag qa qs lam) → M = lam) := by
  obtain ⟨lam', h1, h2⟩ := C159_pythagoras qa qs ha hs bs maxIter hne hpos
  obtain rfl : lam = lam' := Option.some.inj (hlam.symm.trans h1)
  have hnn : ∀ i, 0 ≤ ∑ j, (lam i j - M i j) ^ 2 := fun i => Finset.sum_nonneg fun j _ => sq_nonneg _
  have hnn' : 0 ≤ ∑ i, ∑ j, (lam i j - M i j) ^ 2 := Finset.sum_nonneg fun i _ => hnn i
  refine ⟨by rw [h2 M]; linarith, fun h => ?_⟩
  rw [h2 M] at h
  have h0 : ∑ i, ∑ j, (lam i j - M i j) ^ 2 = 0 := le_antisymm (by linarith) hnn'
  ext i j
  have h3 := (Finset.sum_eq_zero_iff_of_nonneg fun i _ => hnn i).1 h0 i (Finset.mem_univ i)
  have h4 := (Finset.sum_eq_zero_iff_of_nonneg fun j _ => sq_nonneg _).1 h3 j (Finset.mem_univ j)
  have := pow_eq_zero_iff (two_ne_zero) |>.1 h4
  linarith

/-- **C159.** The total of the estimated eigenvalues is the trace of the empirical Fisher matrix (the mean squared norm of the layer
gradient), and every one of them is non-negative: the approximation keeps the trace and stays positive semidefinite. -/
theorem C159_trace (qa : Matrix (Fin p) (Fin p) ℝ) (qs : Matrix (Fin q) (Fin q) ℝ) (ha : qa * qaᵀ = 1) (hs : qs * qsᵀ = 1)
    (bs : List (List ((Fin p → ℝ) × (Fin q → ℝ)))) (maxIter : Option Nat)
    (hne : visited maxIter bs ≠ []) (hpos : ∀ b ∈ visited maxIter bs, b ≠ []) :
    ∃ lam, estimateLambda qa qs bs maxIter = some lam ∧ (∀ i j, 0 ≤ lam i j) ∧
      ∑ i, ∑ j, lam i j = ∑ u, fisherMat (visited maxIter bs).flatten u u := by
  obtain ⟨lam, h1, h2⟩ := C19_lambda_pooled qa qs bs maxIter hne hpos
  refine ⟨lam, h1, fun i j => ?_, ?_⟩
  · rw [h2]
    refine div_nonneg (List.sum_nonneg ?_) (Nat.cast_nonneg _)
    intro a ha
    obtain ⟨x, _, rfl⟩ := List.mem_map.1 ha
    exact sq_nonneg _
  · have hd : ∀ u : Fin q × Fin p, lam u.1 u.2 = (kronBasis qa qs * fisherMat (visited maxIter bs).flatten *
        (kronBasis qa qs)ᵀ) u u := by
      rintro ⟨i, j⟩
      rw [rotated_diag, h2]
    have e : ∑ i, ∑ j, lam i j = ∑ u : Fin q × Fin p, lam u.1 u.2 := by rw [Fintype.sum_prod_type]
    rw [e]
    simp only [hd]
    have := Matrix.trace_mul_comm (kronBasis qa qs * fisherMat (visited maxIter bs).flatten) (kronBasis qa qs)ᵀ
    rw [← Matrix.mul_assoc, kronBasis_orth qa qs ha hs, Matrix.one_mul] at this
    exact this

/-- The operator of the transform is `kronDiag` plus damping, entry by entry. -/
lemma basisOp_entry (qa : Matrix (Fin p) (Fin p) ℝ) (qs : Matrix (Fin q) (Fin q) ℝ) (ha : qa * qaᵀ = 1) (hs : qs * qsᵀ = 1)
    (lam : Matrix (Fin q) (Fin p) ℝ) (δ : ℝ) (W : Matrix (Fin q) (Fin p) ℝ) (i : Fin q) (j : Fin p) :
    basisOp qa qs lam δ W i j = (∑ u : Fin q × Fin p, kronDiag qa qs lam (i, j) u * W u.1 u.2) + δ * W i j := by
  have ha' : qaᵀ * qa = 1 := mul_eq_one_comm.1 ha
  have hs' : qsᵀ * qs = 1 := mul_eq_one_comm.1 hs
  have e1 : basisOp qa qs lam δ W = qsᵀ * Matrix.of (fun i j => (qs * W * qaᵀ) i j * lam i j) * qa + δ • W := by
    have : Matrix.of (fun i j => (qs * W * qaᵀ) i j * (lam i j + δ)) =
        Matrix.of (fun i j => (qs * W * qaᵀ) i j * lam i j) + δ • (qs * W * qaᵀ) := by
      ext i j
      simp only [Matrix.of_apply, Matrix.add_apply, Matrix.smul_apply, smul_eq_mul]
      ring
    rw [basisOp, this, Matrix.mul_add, Matrix.add_mul, Matrix.mul_smul, Matrix.smul_mul]
    congr 2
    calc qsᵀ * (qs * W * qaᵀ) * qa = (qsᵀ * qs) * W * (qaᵀ * qa) := by simp only [Matrix.mul_assoc]
      _ = W := by rw [hs', ha', Matrix.one_mul, Matrix.mul_one]
  rw [e1, Matrix.add_apply, Matrix.smul_apply, smul_eq_mul]
  congr 1
  simp only [Matrix.mul_apply, Matrix.transpose_apply, Matrix.of_apply, kronDiag]
  rw [Fintype.sum_prod_type]
  simp only [Finset.sum_mul, Finset.mul_sum]
  have h2 : ∀ (f : Fin q → Fin p → Fin q → Fin p → ℝ),
      ∑ c, ∑ r, ∑ x, ∑ y, f r c y x = ∑ y, ∑ x, ∑ r, ∑ c, f r c y x := by
    intro f
    rw [Finset.sum_comm]
    have : ∀ r, ∑ c, ∑ x, ∑ y, f r c y x = ∑ y, ∑ x, ∑ c, f r c y x := by
      intro r
      rw [Finset.sum_comm]
      have e : ∀ x, ∑ c, ∑ y, f r c y x = ∑ y, ∑ c, f r c y x := fun x => Finset.sum_comm
      simp only [e]
      exact Finset.sum_comm
    simp only [this]
    rw [Finset.sum_comm]
    exact Finset.sum_congr rfl fun y _ => Finset.sum_comm
  rw [h2 (fun r c y x => qs r i * (qs r y * W y x * qa c x * lam r c) * qa c j)]
  refine Finset.sum_congr rfl fun y _ => Finset.sum_congr rfl fun x _ => Finset.sum_congr rfl fun r _ =>
    Finset.sum_congr rfl fun c _ => by ring

/-- **C159.** The transform with the estimated `Λ` and any positive damping is finite, and it is the unique solution of the linear
system whose matrix is that best approximation plus the damping on the diagonal. -/
theorem C159_solves (qa : Matrix (Fin p) (Fin p) ℝ) (qs : Matrix (Fin q) (Fin q) ℝ) (ha : qa * qaᵀ = 1) (hs : qs * qsᵀ = 1)
    (bs : List (List ((Fin p → ℝ) × (Fin q → ℝ)))) (maxIter : Option Nat)
    (hne : visited maxIter bs ≠ []) (hpos : ∀ b ∈ visited maxIter bs, b ≠ []) (lam : Matrix (Fin q) (Fin p) ℝ)
    (hlam : estimateLambda qa qs bs maxIter = some lam) (δ : ℝ) (hδ : 0 < δ) (V : Matrix (Fin q) (Fin p) ℝ) :
    ∃ W, ifvp qa qs lam δ V = some W ∧ ∀ W' : Matrix (Fin q) (Fin p) ℝ,
      (∀ i j, (∑ u : Fin q × Fin p, kronDiag qa qs lam (i, j) u * W' u.1 u.2) + δ * W' i j = V i j) ↔ W' = W := by
  obtain ⟨lam', h1, h2, _⟩ := C159_trace qa qs ha hs bs maxIter hne hpos
  obtain rfl : lam = lam' := Option.some.inj (hlam.symm.trans h1)
  obtain ⟨W, h3, h4⟩ := (C17_ekfac_solves qa qs lam δ V ha hs).2 fun i j => by have := h2 i j; linarith
  refine ⟨W, h3, fun W' => ?_⟩
  rw [← h4 W', ← Matrix.ext_iff]
  simp only [basisOp_entry qa qs ha hs]

/-- Two samples of a one-output layer with two inputs, identity bases: the hypotheses hold and `Λ = (1/2, 2)`. -/
example : ∃ lam, estimateLambda (1 : Matrix (Fin 2) (Fin 2) ℝ) (1 : Matrix (Fin 1) (Fin 1) ℝ)
    [[(![1, 0], ![1])], [(![0, 2], ![1])]] none = some lam ∧ lam 0 0 = 1 / 2 ∧ lam 0 1 = 2 := by
  obtain ⟨lam, h1, h2⟩ := C19_lambda_pooled (1 : Matrix (Fin 2) (Fin 2) ℝ) (1 : Matrix (Fin 1) (Fin 1) ℝ)
    [[(![1, 0], ![1])], [(![0, 2], ![1])]] none (by simp [visited]) (by simp [visited])
  refine ⟨lam, h1, ?_, ?_⟩ <;> rw [h2] <;> simp [visited, Matrix.one_apply]; norm_num

example : (1 : Matrix (Fin 2) (Fin 2) ℝ) * (1 : Matrix (Fin 2) (Fin 2) ℝ)ᵀ = 1 := by simp

end Verif.EKFAC
