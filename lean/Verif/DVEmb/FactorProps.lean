import Mathlib.Analysis.Calculus.FDeriv.Linear
import Mathlib.Analysis.Calculus.FDeriv.Comp
import Mathlib.Analysis.Calculus.FDeriv.Pi
import Mathlib.Analysis.Calculus.Deriv.Prod
import Mathlib.Analysis.Calculus.Deriv.Comp
import Mathlib.Analysis.Calculus.Deriv.Mul
import Mathlib.Analysis.Calculus.Deriv.Add
import Mathlib.Tactic.FinCases
import Mathlib.Tactic.LinearCombination
import Mathlib.Tactic.NormNum
import Mathlib.Data.Real.Basic
import Mathlib.Algebra.Field.Rat
import Verif.DVEmb.FactorModel

/-!
# C55 and C89: factorised compression of linear-layer gradients
-/

namespace Verif.DVEmb

open Matrix Kronecker

variable {K : Type} [Field K] {din dout k : ℕ}

/-- The row-major flattening of a matrix. -/
def flat {m n : ℕ} (G : Matrix (Fin m) (Fin n) K) : Fin m × Fin n → K := fun p => G p.1 p.2

/-- Kronecker product of two projections applied to a flattened outer product. -/
theorem kron_outer {m n k1 k2 : ℕ} (P : Matrix (Fin k1) (Fin m) K) (Q : Matrix (Fin k2) (Fin n) K)
    (u : Fin m → K) (v : Fin n → K) (p : Fin k1 × Fin k2) :
    ((P ⊗ₖ Q) *ᵥ fun q => u q.1 * v q.2) p = (P *ᵥ u) p.1 * (Q *ᵥ v) p.2 := by
  simp only [mulVec, dotProduct, kroneckerMap_apply, Fintype.sum_prod_type, Finset.sum_mul_sum]
  apply Finset.sum_congr rfl
  intro i _
  apply Finset.sum_congr rfl
  intro j _
  ring

theorem mulVec_list_sum {α : Type} {ι κ : Type} [Fintype ι] (M : Matrix κ ι K) (l : List α)
    (f : α → ι → K) :
    M *ᵥ (fun q => (l.map fun x => f x q).sum) = fun p => (l.map fun x => (M *ᵥ f x) p).sum := by
  induction l with
  | nil =>
    funext p
    simp [mulVec, dotProduct]
  | cons a t ih =>
    have : (fun q => ((a :: t).map fun x => f x q).sum)
        = f a + fun q => (t.map fun x => f x q).sum := by
      funext q; simp
    rw [this, mulVec_add, ih]
    funext p
    simp

/-- **C55.**  Two-dimensional activations: the DVEmb Kronecker compression is the Kronecker product
of output and input projection applied to the flattened weight gradient. -/
theorem C55_dvemb_2d (Pa : Matrix (Fin k) (Fin din) K) (Pb : Matrix (Fin k) (Fin dout) K)
    (a : Fin din → K) (b : Fin dout → K) :
    kronecker Pa Pb (.two a b) = (Pb ⊗ₖ Pa) *ᵥ flat (gradW (.two a b)) := by
  funext p
  exact (kron_outer Pb Pa b a p).symm

/-- **C55.**  Three-dimensional activations, any number of positions: the same with the factors in
the opposite order, i.e. applied to the transposed weight gradient. -/
theorem C55_dvemb_3d (Pa : Matrix (Fin k) (Fin din) K) (Pb : Matrix (Fin k) (Fin dout) K)
    (l : List ((Fin din → K) × (Fin dout → K))) :
    kronecker Pa Pb (.three l) = (Pa ⊗ₖ Pb) *ᵥ flat (gradW (.three l))ᵀ := by
  have h : flat (gradW (.three l))ᵀ =
      fun q : Fin din × Fin dout => (l.map fun x => x.1 q.1 * x.2 q.2).sum := rfl
  rw [h, mulVec_list_sum]
  funext p
  simp only [kronecker]
  congr 1
  apply List.map_congr_left
  intro x _
  exact (kron_outer Pa Pb x.1 x.2 p).symm

/-- **C55.**  The two branches lay the result out differently: a single-position sequence gives the
transpose of what the same vectors give as two-dimensional activations. -/
theorem C55_dvemb_layout (Pa : Matrix (Fin k) (Fin din) K) (Pb : Matrix (Fin k) (Fin dout) K)
    (a : Fin din → K) (b : Fin dout → K) (p : Fin k × Fin k) :
    kronecker Pa Pb (.three [(a, b)]) p = kronecker Pa Pb (.two a b) p.swap := by
  simp [kronecker, mul_comm]

/-- **C55.**  The block-projected compressor equals projecting, with `R`, the Kronecker product of
the two sparsifiers applied to the flattened weight gradient times the batch size; two- and
three-dimensional activations. -/
theorem C55_compressor {k1 k2 m : ℕ} (P1 : Matrix (Fin k1) (Fin dout) K)
    (P2 : Matrix (Fin k2) (Fin din) K) (R : Matrix (Fin m) (Fin k1 × Fin k2) K) (B : ℕ)
    (f : Factors K din dout) :
    compress P1 P2 R B f = R *ᵥ ((P1 ⊗ₖ P2) *ᵥ flat ((B : K) • gradW f)) := by
  cases f with
  | two a b =>
    simp only [compress]
    congr 1
    have : flat ((B : K) • gradW (.two a b)) = (B : K) • fun q => b q.1 * a q.2 := rfl
    rw [this, mulVec_smul]
    funext p
    rw [Pi.smul_apply, kron_outer, smul_eq_mul]
    ring
  | three l =>
    simp only [compress]
    congr 1
    have h : flat (gradW (.three l)) =
        fun q : Fin dout × Fin din => (l.map fun x => x.2 q.1 * x.1 q.2).sum := by
      funext q
      simp [flat, gradW, mul_comm]
    have : flat ((B : K) • gradW (.three l)) = (B : K) • flat (gradW (.three l)) := rfl
    rw [this, mulVec_smul, h, mulVec_list_sum]
    funext p
    rw [Pi.smul_apply, smul_eq_mul, ← List.sum_map_mul_left]
    congr 1
    apply List.map_congr_left
    intro x _
    rw [kron_outer P1 P2 x.2 x.1 p]
    ring

/-- **C55.**  The compressed layer gradients of a sample without projection (identity matrices for
all three stages) are the full gradient itself. -/
theorem C55_identity (f : Factors K din dout) (B : ℕ) (R : Matrix (Fin (dout * din))
    (Fin dout × Fin din) K) :
    compress (1 : Matrix (Fin dout) (Fin dout) K) (1 : Matrix (Fin din) (Fin din) K) R B f
      = R *ᵥ flat ((B : K) • gradW f) := by
  rw [C55_compressor, one_kronecker_one, one_mulVec]

/-- The positions of a sample as a list of factor pairs. -/
def positions {n : ℕ} (a : Fin n → Fin din → ℝ) (b : Fin n → Fin dout → ℝ) :
    List ((Fin din → ℝ) × (Fin dout → ℝ)) := List.ofFn fun l => (a l, b l)

/-- **C55.**  The weight gradient built from the factors is the gradient: if the sample's loss has
derivative `v ↦ ∑ b l o * v l o` in the outputs of the layer (one per position), then as a function
of the weight its derivative in direction `V` is the inner product with the built matrix. -/
theorem C55_gradW_is_gradient {n : ℕ} (a : Fin n → Fin din → ℝ) (b : Fin n → Fin dout → ℝ)
    (bias : Fin dout → ℝ) (W : Matrix (Fin dout) (Fin din) ℝ)
    (loss : (Fin n → Fin dout → ℝ) → ℝ) (D : (Fin n → Fin dout → ℝ) →L[ℝ] ℝ)
    (hD : ∀ v, D v = ∑ l, ∑ o, b l o * v l o)
    (hloss : HasFDerivAt loss D (fun l => W *ᵥ a l + bias)) (V : Matrix (Fin dout) (Fin din) ℝ) :
    HasDerivAt (fun t : ℝ => loss fun l => (W + t • V) *ᵥ a l + bias)
      (∑ o, ∑ i, gradW (.three (positions a b)) o i * V o i) 0 := by
  have hpath : HasDerivAt (fun t : ℝ => (fun l => (W + t • V) *ᵥ a l + bias : Fin n → Fin dout → ℝ))
      (fun l => V *ᵥ a l) 0 := by
    rw [hasDerivAt_pi]
    intro l
    rw [hasDerivAt_pi]
    intro o
    have h1 : (fun t : ℝ => ((W + t • V) *ᵥ a l + bias) o)
        = fun t : ℝ => t * (V *ᵥ a l) o + ((W *ᵥ a l) o + bias o) := by
      funext t
      rw [add_mulVec, smul_mulVec]
      simp only [Pi.add_apply, Pi.smul_apply, smul_eq_mul]
      ring
    rw [h1]
    simpa using ((hasDerivAt_id (0 : ℝ)).mul_const ((V *ᵥ a l) o)).add_const ((W *ᵥ a l) o + bias o)
  have h0 : (fun l => (W + (0 : ℝ) • V) *ᵥ a l + bias) = fun l => W *ᵥ a l + bias := by
    simp
  have hl : HasFDerivAt loss D ((fun t : ℝ => (fun l => (W + t • V) *ᵥ a l + bias :
      Fin n → Fin dout → ℝ)) 0) := by
    simpa only [h0] using hloss
  have := hl.comp_hasDerivAt (0 : ℝ) hpath
  have hval : D (fun l => V *ᵥ a l) =
      ∑ o, ∑ i, gradW (.three (positions a b)) o i * V o i := by
    rw [hD]
    simp only [gradW, positions, List.map_ofFn, Function.comp_def, List.sum_ofFn, mulVec,
      dotProduct, Finset.mul_sum, Finset.sum_mul]
    rw [Finset.sum_comm]
    apply Finset.sum_congr rfl
    intro o _
    rw [Finset.sum_comm]
    apply Finset.sum_congr rfl
    intro i _
    apply Finset.sum_congr rfl
    intro l _
    ring
  rw [← hval]
  exact this

/-- Append a one to the layer inputs of a sample. -/
def Factors.withOne : Factors K din dout → Factors K (din + 1) dout
  | .two a b => .two (Verif.DVEmb.withOne a) b
  | .three l => .three (l.map fun p => (Verif.DVEmb.withOne p.1, p.2))

/-- **C55.**  For a layer with bias, appending a one to the input makes the compressed gradient that
of weight and bias together: the first columns are the weight gradient, the last one the bias
gradient. -/
theorem C55_bias_column (f : Factors K din dout) (o : Fin dout) :
    (∀ i : Fin din, gradW f.withOne o i.castSucc = gradW f o i) ∧
    gradW f.withOne o (Fin.last din) = gradB f o := by
  cases f with
  | two a b => exact ⟨fun i => by simp [Factors.withOne, gradW, Verif.DVEmb.withOne],
      by simp [Factors.withOne, gradW, Verif.DVEmb.withOne, gradB]⟩
  | three l =>
    refine ⟨fun i => by simp [Factors.withOne, gradW, Verif.DVEmb.withOne, Function.comp_def], ?_⟩
    simp only [Factors.withOne, gradW, Verif.DVEmb.withOne, gradB, List.map_map, Function.comp_def,
      Fin.snoc_last, one_mul]
    induction l with
    | nil => rfl
    | cons p t ih => simp only [List.map_cons, List.sum_cons, Pi.add_apply, ih]

/-- A concrete two-position sample. -/
example : gradW (.three [(![1, 2], ![3]), (![0, 1], ![-1])] : Factors ℚ 2 1) 0 1 = 5 := by
  norm_num [gradW]

example : kronecker (1 : Matrix (Fin 2) (Fin 2) ℚ) 1 (.two ![1, 2] ![3, 4]) (0, 1) = 6 ∧
    kronecker (1 : Matrix (Fin 2) (Fin 2) ℚ) 1 (.three [(![1, 2], ![3, 4])]) (0, 1) = 4 := by
  constructor <;> norm_num [kronecker]

/-! ## C89 -/

omit [Field K] in
/-- **C89.**  The requested projection type has no effect, and for a square layer the input and the
output projector are the same matrix, whatever the generator and the seed. -/
theorem C89_same_projector (gen : PType → ℕ → (d k : ℕ) → Matrix (Fin k) (Fin d) K)
    (t t' : PType) (seed k n : ℕ) :
    setupProjectors gen t seed k n n = setupProjectors gen t' seed k n n ∧
    (setupProjectors gen t seed k n n).1 = (setupProjectors gen t seed k n n).2 := ⟨rfl, rfl⟩

/-- The elementwise compression as a linear function of the weight gradient. -/
theorem elementwise_eq (c : K) (Pa : Matrix (Fin k) (Fin din) K) (Pb : Matrix (Fin k) (Fin dout) K)
    (f : Factors K din dout) (r : Fin k) :
    elementwise c Pa Pb f r = (∑ o, ∑ i, Pb r o * Pa r i * gradW f o i) * c := by
  cases f with
  | two a b =>
    simp only [elementwise, gradW, mulVec, dotProduct]
    rw [mul_comm (∑ i, Pa r i * a i), Finset.sum_mul_sum]
    congr 1
    apply Finset.sum_congr rfl
    intro o _
    apply Finset.sum_congr rfl
    intro i _
    ring
  | three l =>
    simp only [elementwise, gradW]
    congr 1
    induction l with
    | nil => simp
    | cons q t ih =>
      simp only [List.map_cons, List.sum_cons, mul_add, Finset.sum_add_distrib]
      rw [ih]
      congr 1
      simp only [mulVec, dotProduct]
      rw [mul_comm (∑ i, Pa r i * q.1 i), Finset.sum_mul_sum]
      apply Finset.sum_congr rfl
      intro o _
      apply Finset.sum_congr rfl
      intro i _
      ring

/-- **C89.**  Consequently the elementwise compression of a square layer sees only the symmetric part
of the weight gradient: two samples whose gradients `G`, `G'` satisfy `G + Gᵀ = G' + G'ᵀ` are
compressed to the same vector, for every generator and seed. -/
theorem C89_symmetric_part (gen : PType → ℕ → (d k : ℕ) → Matrix (Fin k) (Fin d) K) (t : PType)
    (seed k n : ℕ) (c : K) (h2 : (2 : K) ≠ 0) (f f' : Factors K n n)
    (h : gradW f + (gradW f)ᵀ = gradW f' + (gradW f')ᵀ) :
    elementwise c (setupProjectors gen t seed k n n).1 (setupProjectors gen t seed k n n).2 f =
    elementwise c (setupProjectors gen t seed k n n).1 (setupProjectors gen t seed k n n).2 f' := by
  funext r
  rw [elementwise_eq, elementwise_eq]
  have key : ∀ (P : Matrix (Fin k) (Fin n) K) (G : Matrix (Fin n) (Fin n) K),
      2 * ∑ o, ∑ i, P r o * P r i * G o i = ∑ o, ∑ i, P r o * P r i * (G + Gᵀ) o i := by
    intro P G
    simp only [Matrix.add_apply, transpose_apply, mul_add, Finset.sum_add_distrib, two_mul]
    congr 1
    rw [Finset.sum_comm]
    apply Finset.sum_congr rfl
    intro o _
    apply Finset.sum_congr rfl
    intro i _
    ring
  congr 1
  apply mul_left_cancel₀ h2
  change 2 * ∑ o, ∑ i, (gen .normal seed n k) r o * (gen .normal seed n k) r i * gradW f o i =
    2 * ∑ o, ∑ i, (gen .normal seed n k) r o * (gen .normal seed n k) r i * gradW f' o i
  rw [key, key, h]

/-- A sample with a non-zero, antisymmetric weight gradient: it is compressed to zero. -/
def exAnti : Factors ℚ 2 2 := .three [(![1, 0], ![0, 1]), (![0, 1], ![-1, 0])]

/-- **C89.**  A training sample can have a non-zero weight gradient and yet be compressed to zero
for every generator and seed, while two unequal projectors do see it. -/
theorem C89_invisible (gen : PType → ℕ → (d k : ℕ) → Matrix (Fin k) (Fin d) ℚ) (t : PType)
    (seed k : ℕ) (c : ℚ) :
    gradW exAnti ≠ 0 ∧
    elementwise c (setupProjectors gen t seed k 2 2).1 (setupProjectors gen t seed k 2 2).2 exAnti
      = 0 ∧
    elementwise (1 : ℚ) (!![1, 0] : Matrix (Fin 1) (Fin 2) ℚ) !![0, 1] exAnti ≠ 0 := by
  refine ⟨?_, ?_, ?_⟩
  · intro h
    have := congrFun (congrFun h 0) 1
    norm_num [gradW, exAnti] at this
  · rw [C89_symmetric_part gen t seed k 2 c two_ne_zero exAnti (.three [])]
    · funext r; simp [elementwise]
    · ext o i
      rw [Matrix.add_apply, Matrix.add_apply, transpose_apply, transpose_apply]
      fin_cases o <;> fin_cases i <;> norm_num [gradW, exAnti]
  · intro h
    have := congrFun h 0
    norm_num [elementwise, exAnti, mulVec, dotProduct, Fin.sum_univ_two] at this

end Verif.DVEmb
