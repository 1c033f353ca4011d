import Verif.EKFAC.Stats
import Mathlib.LinearAlgebra.Matrix.NonsingularInverse
import Mathlib.LinearAlgebra.Matrix.Trace
import Mathlib.Tactic.Linarith
import Mathlib.Tactic.FinCases

/-! # C17, C18: the EK-FAC transform -/

namespace Verif.EKFAC

open Matrix

variable {R : Type} [Field R] [DecidableEq R] {p q : Nat}

/-- Specification: the operator `W ↦ Q_Sᵀ ((Q_S W Q_Aᵀ) ⊙ (Λ + δ)) Q_A`, i.e. multiplication by `Λ + δ` in the basis whose vectors are
the rows of the stored matrices. -/
def basisOp (qa : Matrix (Fin p) (Fin p) R) (qs : Matrix (Fin q) (Fin q) R) (lam : Matrix (Fin q) (Fin p) R) (δ : R)
    (w : Matrix (Fin q) (Fin p) R) : Matrix (Fin q) (Fin p) R :=
  qsᵀ * Matrix.of (fun i j => (qs * w * qaᵀ) i j * (lam i j + δ)) * qa

/-- **C17.** For orthogonal `Q_S`, `Q_A` and non-zero `Λ + δ`, the transform of `V` is the unique `W` with `basisOp W = V`; a zero in
`Λ + δ` makes it non-finite. -/
theorem C17_ekfac_solves (qa : Matrix (Fin p) (Fin p) R) (qs : Matrix (Fin q) (Fin q) R) (lam : Matrix (Fin q) (Fin p) R) (δ : R)
    (v : Matrix (Fin q) (Fin p) R) (ha : qa * qaᵀ = 1) (hs : qs * qsᵀ = 1) :
    ((∃ i j, lam i j + δ = 0) → ifvp qa qs lam δ v = none) ∧
    ((∀ i j, lam i j + δ ≠ 0) → ∃ w, ifvp qa qs lam δ v = some w ∧ ∀ w', basisOp qa qs lam δ w' = v ↔ w' = w) := by
  have ha' : qaᵀ * qa = 1 := mul_eq_one_comm.1 ha
  have hs' : qsᵀ * qs = 1 := mul_eq_one_comm.1 hs
  refine ⟨fun h => by simp [ifvp, h], fun h => ?_⟩
  have hif : ifvp qa qs lam δ v = some (qsᵀ * Matrix.of (fun i j => (qs * v * qaᵀ) i j / (lam i j + δ)) * qa) := by
    unfold ifvp
    rw [if_neg (by push Not; exact h)]
  refine ⟨_, hif, fun w' => ?_⟩
  have hcan : ∀ m : Matrix (Fin q) (Fin p) R, qs * (qsᵀ * m * qa) * qaᵀ = m := by
    intro m
    rw [Matrix.mul_assoc qsᵀ, ← Matrix.mul_assoc qs, hs, Matrix.one_mul, Matrix.mul_assoc, ha, Matrix.mul_one]
  have hcan' : ∀ m : Matrix (Fin q) (Fin p) R, qsᵀ * (qs * m * qaᵀ) * qa = m := by
    intro m
    rw [Matrix.mul_assoc qs, ← Matrix.mul_assoc qsᵀ, hs', Matrix.one_mul, Matrix.mul_assoc, ha', Matrix.mul_one]
  constructor
  · rintro rfl
    unfold basisOp
    rw [hcan]
    have : (Matrix.of fun i j => (Matrix.of (fun i j => (qs * w' * qaᵀ) i j * (lam i j + δ))) i j / (lam i j + δ))
        = qs * w' * qaᵀ := by
      ext i j
      simp only [Matrix.of_apply]
      exact mul_div_cancel_right₀ _ (h i j)
    rw [this, hcan']
  · rintro rfl
    unfold basisOp
    rw [hcan]
    have : (Matrix.of fun i j => (Matrix.of (fun i j => (qs * v * qaᵀ) i j / (lam i j + δ))) i j * (lam i j + δ))
        = qs * v * qaᵀ := by
      ext i j
      simp only [Matrix.of_apply]
      exact div_mul_cancel₀ _ (h i j)
    rw [this, hcan']

/-- **C17.** The transform is linear (for every `Q_S`, `Q_A`). -/
theorem C17_ekfac_linear (qa : Matrix (Fin p) (Fin p) R) (qs : Matrix (Fin q) (Fin q) R) (lam : Matrix (Fin q) (Fin p) R) (δ : R)
    (v v' : Matrix (Fin q) (Fin p) R) (c : R) (h : ∀ i j, lam i j + δ ≠ 0) :
    ∃ w w', ifvp qa qs lam δ v = some w ∧ ifvp qa qs lam δ v' = some w' ∧ ifvp qa qs lam δ (v + c • v') = some (w + c • w') := by
  have hif : ∀ v, ifvp qa qs lam δ v = some (qsᵀ * Matrix.of (fun i j => (qs * v * qaᵀ) i j / (lam i j + δ)) * qa) := by
    intro v
    unfold ifvp
    rw [if_neg (by push Not; exact h)]
  refine ⟨_, _, hif v, hif v', ?_⟩
  rw [hif]
  congr 1
  rw [← Matrix.smul_mul, ← Matrix.mul_smul, ← Matrix.add_mul, ← Matrix.mul_add]
  congr 2
  ext i j
  simp only [Matrix.of_apply, Matrix.add_apply, Matrix.smul_apply, Matrix.mul_add, Matrix.add_mul, Matrix.mul_smul,
    Matrix.smul_mul, smul_eq_mul]
  ring

/-- **C17.** The transform is symmetric for the Frobenius inner product `tr(Xᵀ Y)` (for every `Q_S`, `Q_A`). -/
theorem C17_ekfac_symmetric (qa : Matrix (Fin p) (Fin p) R) (qs : Matrix (Fin q) (Fin q) R) (lam : Matrix (Fin q) (Fin p) R) (δ : R)
    (v v' : Matrix (Fin q) (Fin p) R) (h : ∀ i j, lam i j + δ ≠ 0) :
    ∃ w w', ifvp qa qs lam δ v = some w ∧ ifvp qa qs lam δ v' = some w' ∧ trace (v'ᵀ * w) = trace (w'ᵀ * v) := by
  have hif : ∀ v, ifvp qa qs lam δ v = some (qsᵀ * Matrix.of (fun i j => (qs * v * qaᵀ) i j / (lam i j + δ)) * qa) := by
    intro v
    unfold ifvp
    rw [if_neg (by push Not; exact h)]
  refine ⟨_, _, hif v, hif v', ?_⟩
  have tr : ∀ (x : Matrix (Fin q) (Fin p) R) (m : Matrix (Fin q) (Fin p) R),
      trace (xᵀ * (qsᵀ * m * qa)) = ∑ i, ∑ j, (qs * x * qaᵀ) i j * m i j := by
    intro x m
    have : trace (xᵀ * (qsᵀ * m * qa)) = trace ((qs * x * qaᵀ)ᵀ * m) := by
      simp only [transpose_mul, transpose_transpose]
      rw [show xᵀ * (qsᵀ * m * qa) = (xᵀ * qsᵀ * m) * qa by simp only [Matrix.mul_assoc], trace_mul_comm]
      simp only [Matrix.mul_assoc]
    rw [this]
    simp only [trace, diag, mul_apply, transpose_apply]
    rw [Finset.sum_comm]
  rw [tr]
  rw [show trace ((qsᵀ * Matrix.of (fun i j => (qs * v' * qaᵀ) i j / (lam i j + δ)) * qa)ᵀ * v)
    = trace (vᵀ * (qsᵀ * Matrix.of (fun i j => (qs * v' * qaᵀ) i j / (lam i j + δ)) * qa)) by
      rw [← trace_transpose]; simp only [transpose_mul, transpose_transpose], tr]
  refine Finset.sum_congr rfl fun i _ => Finset.sum_congr rfl fun j _ => ?_
  simp only [Matrix.of_apply]
  ring

/-- **C17.** If the ROWS of the stored matrices are the orthonormal eigenvectors of `S` and `A` and `Λ` holds the products of the
eigenvalues, the transform solves the damped Kronecker system `S W A + δ W = V`, uniquely. -/
theorem C17_row_convention (qa : Matrix (Fin p) (Fin p) R) (qs : Matrix (Fin q) (Fin q) R) (S : Matrix (Fin q) (Fin q) R)
    (A : Matrix (Fin p) (Fin p) R) (s : Fin q → R) (a : Fin p → R) (δ : R) (v : Matrix (Fin q) (Fin p) R)
    (ha : qa * qaᵀ = 1) (hs : qs * qsᵀ = 1) (hS : S = qsᵀ * diagonal s * qs) (hA : A = qaᵀ * diagonal a * qa)
    (h : ∀ i j, s i * a j + δ ≠ 0) :
    ∃ w, ifvp qa qs (Matrix.of fun i j => s i * a j) δ v = some w ∧ ∀ w', S * w' * A + δ • w' = v ↔ w' = w := by
  obtain ⟨w, h1, h2⟩ := (C17_ekfac_solves qa qs (Matrix.of fun i j => s i * a j) δ v ha hs).2 h
  refine ⟨w, h1, fun w' => ?_⟩
  rw [← h2 w']
  have ha' : qaᵀ * qa = 1 := mul_eq_one_comm.1 ha
  have hs' : qsᵀ * qs = 1 := mul_eq_one_comm.1 hs
  have e : basisOp qa qs (Matrix.of fun i j => s i * a j) δ w' = S * w' * A + δ • w' := by
    have e1 : (Matrix.of fun i j => (qs * w' * qaᵀ) i j * ((Matrix.of fun i j => s i * a j) i j + δ))
        = diagonal s * (qs * w' * qaᵀ) * diagonal a + δ • (qs * w' * qaᵀ) := by
      ext i j
      rw [Matrix.add_apply, mul_diagonal, diagonal_mul, Matrix.smul_apply]
      simp only [Matrix.of_apply, smul_eq_mul]
      ring
    unfold basisOp
    rw [e1, Matrix.mul_add, Matrix.add_mul, Matrix.mul_smul, Matrix.smul_mul, hS, hA]
    congr 1
    · simp only [Matrix.mul_assoc]
    · congr 1
      rw [Matrix.mul_assoc qs, ← Matrix.mul_assoc qsᵀ, hs', Matrix.one_mul, Matrix.mul_assoc, ha', Matrix.mul_one]
  rw [e]

/-- **C17.** `torch.linalg.eigh` returns eigenvectors as COLUMNS. With column eigenvectors the same formula is correct for the
TRANSPOSED stored matrices. -/
theorem C17_column_convention_needs_transpose (qa : Matrix (Fin p) (Fin p) R) (qs : Matrix (Fin q) (Fin q) R)
    (S : Matrix (Fin q) (Fin q) R) (A : Matrix (Fin p) (Fin p) R) (s : Fin q → R) (a : Fin p → R) (δ : R)
    (v : Matrix (Fin q) (Fin p) R) (ha : qa * qaᵀ = 1) (hs : qs * qsᵀ = 1) (hS : S = qs * diagonal s * qsᵀ)
    (hA : A = qa * diagonal a * qaᵀ) (h : ∀ i j, s i * a j + δ ≠ 0) :
    ∃ w, ifvp qaᵀ qsᵀ (Matrix.of fun i j => s i * a j) δ v = some w ∧ ∀ w', S * w' * A + δ • w' = v ↔ w' = w :=
  C17_row_convention qaᵀ qsᵀ S A s a δ v (by rw [transpose_transpose]; exact mul_eq_one_comm.1 ha)
    (by rw [transpose_transpose]; exact mul_eq_one_comm.1 hs) (by rw [transpose_transpose]; exact hS)
    (by rw [transpose_transpose]; exact hA) h

/-! ### The end-to-end counterexample -/

/-- The two output gradients of the witness: `c₁` and `2 c₂` with `c₁ = (3/5, 4/5)`, `c₂ = (-4/5, 3/5)`. -/
def ds1 : Fin 2 → ℚ := ![3 / 5, 4 / 5]
def ds2 : Fin 2 → ℚ := ![-8 / 5, 6 / 5]

/-- Eigenvector matrix of the witness, in the convention of `torch.linalg.eigh`: column `k` belongs to eigenvalue `k`. -/
def Q : Matrix (Fin 2) (Fin 2) ℚ := !![3 / 5, -4 / 5; 4 / 5, 3 / 5]

/-- The output-gradient covariance of the witness. -/
def S : Matrix (Fin 2) (Fin 2) ℚ := !![73 / 50, -18 / 25; -18 / 25, 26 / 25]

/-- **C17 (disagreement).** A layer with one input (always `1`) and two outputs, two samples. Its Fisher matrix is exactly `S`, the
average of `ds dsᵀ`, and `Q` is a valid `eigh` result for `S`. Yet the eigenvalues the code estimates with `Q` and the transform it
applies give a `W` with `S W ≠ V`, although the solution exists. -/
theorem C17_eigh_columns_wrong :
    S = Matrix.of (fun i j => (ds1 i * ds1 j + ds2 i * ds2 j) / 2) ∧
    Q * Qᵀ = 1 ∧ S * Q = Q * diagonal ![1 / 2, 2] ∧
    ∃ (lam w : Matrix (Fin 2) (Fin 1) ℚ), estimateLambda (R := ℚ) (p := 1) 1 Q [[(fun _ => 1, ds1), (fun _ => 1, ds2)]] none = some lam ∧
      ifvp 1 Q lam 0 !![1; 0] = some w ∧ S * w ≠ !![1; 0] ∧ ∃ w' : Matrix (Fin 2) (Fin 1) ℚ, S * w' = !![1; 0] := by
  refine ⟨?_, ?_, ?_, ?_⟩
  · ext i j; fin_cases i <;> fin_cases j <;> simp [S, ds1, ds2] <;> norm_num
  · ext i j; fin_cases i <;> fin_cases j <;> simp [Q, mul_apply, Fin.sum_univ_two, one_apply] <;> norm_num
  · ext i j; fin_cases i <;> fin_cases j <;> simp [S, Q, mul_apply, Fin.sum_univ_two, diagonal_apply] <;> norm_num
  · obtain ⟨lam, hl, he⟩ := C19_lambda_pooled (R := ℚ) (p := 1) 1 Q [[(fun _ => 1, ds1), (fun _ => 1, ds2)]] none
      (by simp [visited]) (by simp [visited])
    have l0 : lam 0 0 = 2353 / 1250 := by
      rw [he]; simp [visited, Q, ds1, ds2, Fin.sum_univ_two]; norm_num
    have l1 : lam 1 0 = 772 / 1250 := by
      rw [he]; simp [visited, Q, ds1, ds2, Fin.sum_univ_two]; norm_num
    have hne : ¬ ∃ i j, lam i j + 0 = 0 := by
      push Not
      intro i j
      fin_cases j
      fin_cases i
      · simp [l0]
      · simp [l1]
    refine ⟨lam, _, hl, by unfold ifvp; rw [if_neg hne], ?_, !![26 / 25; 18 / 25], ?_⟩
    · intro h
      have := congrFun (congrFun h 1) 0
      simp [S, Q, mul_apply, Fin.sum_univ_two, l0, l1] at this
      norm_num at this
    · ext i j; fin_cases j; fin_cases i <;> simp [S, mul_apply, Fin.sum_univ_two] <;> norm_num

/-! ## C18 -/

omit [Field R] [DecidableEq R] in
lemma flat_getElem (w : Fin q → Fin p → R) (i : Fin q) (j : Fin p) : (flat w)[i.1 * p + j.1]? = some (w i j) := by
  have hl : ∀ (l : List (Fin q)) , (l.flatMap (fun i => List.ofFn (w i))).length = l.length * p := by
    intro l; induction l with
    | nil => simp
    | cons a l ih => simp [List.length_flatMap] at ih ⊢; rw [Nat.add_mul]; omega
  have key : ∀ (l : List (Fin q)) (k : Nat) (hk : k < l.length), (l.flatMap (fun i => List.ofFn (w i)))[k * p + j.1]? = some (w l[k] j) := by
    intro l
    induction l with
    | nil => intro k hk; simp at hk
    | cons a l ih =>
      intro k hk
      rw [List.flatMap_cons]
      cases k with
      | zero =>
        rw [List.getElem?_append_left (by simp)]
        simp
      | succ k =>
        rw [List.getElem?_append_right (by simp; rw [Nat.add_mul]; omega)]
        have : (k + 1) * p + j.1 - (List.ofFn (w a)).length = k * p + j.1 := by simp; rw [Nat.add_mul]; omega
        rw [this, ih k (by simpa using hk)]
        simp
  have := key (List.finRange q) i.1 (by simp)
  simpa [flat] using this

omit [Field R] [DecidableEq R] in
lemma flat_length (w : Fin q → Fin p → R) : (flat w).length = q * p := by
  simp [flat, List.length_flatMap]

omit [Field R] [DecidableEq R] in
/-- **C18.** Entry `(i, j)` of the matrix built for a layer with bias is position `i*(in+1)+j` of the concatenation of the row-major
weight gradient and the bias gradient. -/
theorem C18_layout (w : Fin q → Fin p → R) (b : Fin q → R) (i : Nat) (hi : i < q) (j : Nat) (hj : j < p + 1) :
    (∀ (r : Fin q) (c : Fin p), i * (p + 1) + j = r.1 * p + c.1 → biasLayout w b i j = some (w r c)) ∧
    (∀ r : Fin q, i * (p + 1) + j = q * p + r.1 → biasLayout w b i j = some (b r)) := by
  have hlt : i * (p + 1) + j < q * p + q := by
    have : (i + 1) * (p + 1) ≤ q * (p + 1) := Nat.mul_le_mul_right _ hi
    rw [Nat.add_mul, Nat.mul_add q] at this
    omega
  constructor
  · intro r c h
    unfold biasLayout
    rw [h, List.getElem?_append_left, flat_getElem]
    rw [flat_length]
    have : (r.1 + 1) * p ≤ q * p := Nat.mul_le_mul_right _ r.2
    rw [Nat.add_mul] at this
    have := c.2
    omega
  · intro r h
    unfold biasLayout
    rw [h, List.getElem?_append_right (by rw [flat_length]; omega), flat_length]
    simp

/-- Specification: entry `(i, j)` of the augmented gradient `[W | b]` that matches the hook's inputs (bias column last). -/
def augmented (w : Fin q → Fin p → R) (b : Fin q → R) (i j : Nat) (hi : i < q) : Option R :=
  if h : j < p then some (w ⟨i, hi⟩ ⟨j, h⟩) else some (b ⟨i, hi⟩)

/-- **C18.** The matrix built is the augmented gradient `[W | b]` for every gradient exactly when the layer has at most one output or no
inputs. -/
theorem C18_bias_layout_iff [CharZero R] : (∀ (w : Fin q → Fin p → R) (b : Fin q → R) (i j : Nat) (hi : i < q), j < p + 1 →
    biasLayout w b i j = augmented w b i j hi) ↔ q ≤ 1 ∨ p = 0 := by
  constructor
  · intro h
    by_contra hc
    push Not at hc
    obtain ⟨hq, hp⟩ := hc
    -- entry (0, p) is w[1][0], not b[0]
    have h0 := h (fun _ _ => 0) (fun _ => 1) 0 p (by omega) (by omega)
    have h1 := (C18_layout (R := R) (q := q) (p := p) (fun _ _ => 0) (fun _ => 1) 0 (show 0 < q by omega) p (by omega)).1 ⟨1, by omega⟩
      ⟨0, by omega⟩ (by simp)
    rw [h1] at h0
    simp [augmented] at h0
  · intro h w b i j hi hj
    rcases h with hq | rfl
    · obtain rfl : i = 0 := by omega
      obtain rfl : q = 1 := by omega
      unfold augmented
      split
      · next hjp => exact (C18_layout w b 0 hi j hj).1 0 ⟨j, hjp⟩ (by simp)
      · next hjp => exact (C18_layout w b 0 hi j hj).2 0 (by simp; omega)
    · obtain rfl : j = 0 := by omega
      simp only [augmented, Nat.lt_irrefl, dif_neg, not_false_iff]
      exact (C18_layout w b i hi 0 (by omega)).2 ⟨i, hi⟩ (by simp)

/-- A 2-output, 1-input layer: the code pairs weight 2 with the bias column of output 1. -/
example : (List.range 2).map (fun i => (List.range 2).map (fun j =>
    biasLayout (R := ℚ) (q := 2) (p := 1) ![![1], ![2]] ![10, 20] i j)) = [[some 1, some 2], [some 10, some 20]] := by decide +kernel

example : (1 : Matrix (Fin 2) (Fin 2) ℚ) * 1ᵀ = 1 ∧ Q * Qᵀ = 1 := by
  exact ⟨by simp, C17_eigh_columns_wrong.2.1⟩

/-- EK-FAC refuses several checkpoints and non-zero checkpoint indices. -/
theorem C17_single_checkpoint (nc idx : Nat) : ekfacChecks nc idx = .ok () ↔ nc ≤ 1 ∧ idx = 0 := by
  unfold ekfacChecks
  by_cases h : nc > 1 <;> by_cases h' : idx = 0 <;> simp [h, h', bind, Except.bind, pure, Except.pure] <;> omega

end Verif.EKFAC
