import Verif.Hessian.FisherModel
import Mathlib.Data.Real.Basic
import Mathlib.LinearAlgebra.Matrix.DotProduct
import Mathlib.Algebra.Order.BigOperators.Ring.Finset
import Mathlib.Algebra.BigOperators.Field
import Mathlib.Tactic.Linarith
import Mathlib.Tactic.Positivity
import Mathlib.Tactic.FieldSimp
import Mathlib.Tactic.FinCases

/-!
# C128: explicit inverse-Fisher-vector products
-/

namespace Verif.Hessian

open Matrix Verif.Attr

variable {p k : Nat}

/-- A linear system solved for every right-hand side has an invertible matrix, and the solver returns the solution. -/
lemma linSolve_of_solution {A : Matrix (Fin p) (Fin p) ℝ} (hdet : A.det ≠ 0) {u v : Fin p → ℝ} (h : A *ᵥ u = v) : linSolve A v = some u := by
  unfold linSolve
  rw [if_neg hdet, ← h, mulVec_mulVec, nonsing_inv_mul _ hdet.isUnit, one_mulVec]

lemma linSolve_some {A : Matrix (Fin p) (Fin p) ℝ} {u v : Fin p → ℝ} (h : linSolve A v = some u) : A.det ≠ 0 ∧ A *ᵥ u = v := by
  unfold linSolve at h
  split at h
  · cases h
  · next hd =>
    obtain rfl := Option.some.inj h
    refine ⟨hd, ?_⟩
    rw [mulVec_mulVec, mul_nonsing_inv _ (isUnit_iff_ne_zero.2 hd), one_mulVec]

lemma fimReg_vec_mulVec (reg : ℝ) (g u : Fin p → ℝ) (i : Fin p) :
    (fimReg (k := k) reg (.vec g) *ᵥ u) i = (∑ l, g l * g l) * ∑ l, u l + reg * u i := by
  simp only [fimReg, mulVec, dotProduct, of_apply, add_mul, Finset.sum_add_distrib, ← Finset.mul_sum]
  congr 1
  simp [Finset.sum_ite_eq]

lemma vec_det (reg : ℝ) (hr : 0 < reg) (g : Fin p → ℝ) : (fimReg (k := k) reg (.vec g)).det ≠ 0 := by
  rw [Ne, ← exists_mulVec_eq_zero_iff]
  rintro ⟨v, hv, h⟩
  have hs : 0 ≤ ∑ l, g l * g l := Finset.sum_nonneg fun l _ => mul_self_nonneg _
  have hi : ∀ i, (∑ l, g l * g l) * ∑ l, v l + reg * v i = 0 := fun i => by
    rw [← fimReg_vec_mulVec (k := k), h]; rfl
  have hsum : (p * (∑ l, g l * g l) + reg) * ∑ l, v l = 0 := by
    have := Finset.sum_congr rfl (fun i (_ : i ∈ Finset.univ) => hi i)
    simp only [Finset.sum_add_distrib, Finset.sum_const, Finset.card_univ, Fintype.card_fin, nsmul_eq_mul, ← Finset.mul_sum, mul_zero] at this
    linarith
  have hz : ∑ l, v l = 0 := by
    rcases mul_eq_zero.1 hsum with h | h
    · exact absurd h (by positivity)
    · exact h
  apply hv
  ext i
  have := hi i
  rw [hz, mul_zero, zero_add] at this
  exact (mul_eq_zero.1 this).resolve_left hr.ne'

/-- **C128** (what a flattened parameter gives). For a one-dimensional gradient `g` and a positive regularisation `λ` the product never
fails and is `u_i = (v_i - |g|² Σv / (λ + p |g|²)) / λ`: besides `v` it depends only on the norm of the gradient. -/
theorem C128_flat (reg : ℝ) (hr : 0 < reg) (g v : Fin p → ℝ) :
    ifvpExplicit (k := k) reg (.vec g) v =
      some fun i => (v i - (∑ l, g l * g l) * (∑ l, v l) / (reg + p * ∑ l, g l * g l)) / reg := by
  apply linSolve_of_solution (vec_det reg hr g)
  funext i
  rw [fimReg_vec_mulVec]
  set s := ∑ l, g l * g l with hs
  have hs0 : 0 ≤ s := Finset.sum_nonneg fun l _ => mul_self_nonneg _
  have hd : reg + p * s ≠ 0 := by positivity
  rw [← Finset.sum_div, Finset.sum_sub_distrib, Finset.sum_const, Finset.card_univ, Fintype.card_fin, nsmul_eq_mul]
  set t := ∑ l, v l
  field_simp
  ring

/-- **C128** (documented value). For `p ≥ 1` the result is, for every `v`, the solution of the documented system
`(g gᵀ + λ I) u = v` exactly if there is a single parameter or the gradient is zero. -/
theorem C128_documented_iff (reg : ℝ) (hr : 0 < reg) (g : Fin p → ℝ) (hp : 0 < p) :
    (∀ v, ∃ u, ifvpExplicit (k := k) reg (.vec g) v = some u ∧ ∀ i, g i * ∑ l, g l * u l + reg * u i = v i) ↔ p = 1 ∨ g = 0 := by
  constructor
  · intro h
    have hall : ∀ u : Fin p → ℝ, ∀ i, g i * ∑ l, g l * u l = (∑ l, g l * g l) * ∑ l, u l := by
      intro u i
      obtain ⟨u', hu', hd⟩ := h (fimReg (k := k) reg (.vec g) *ᵥ u)
      rw [ifvpExplicit, linSolve_of_solution (vec_det reg hr g) rfl] at hu'
      obtain rfl := Option.some.inj hu'
      have := hd i
      rw [fimReg_vec_mulVec] at this
      linarith
    by_cases h1 : p = 1
    · exact Or.inl h1
    · right
      have hp2 : 2 ≤ p := by omega
      have hii : ∀ i, g i * g i = ∑ l, g l * g l := by
        intro i
        have := hall (Pi.single i 1) i
        simpa [Pi.single_apply] using this
      have hsum : (∑ l, g l * g l) = p * ∑ l, g l * g l := by
        conv_lhs => rw [Finset.sum_congr rfl (fun i _ => hii i)]
        simp
      have hz : ∑ l, g l * g l = 0 := by
        have h2 : ((p : ℝ) - 1) * ∑ l, g l * g l = 0 := by linarith
        rcases mul_eq_zero.1 h2 with h | h
        · have : (2 : ℝ) ≤ p := by exact_mod_cast hp2
          linarith
        · exact h
      ext i
      have := hii i
      rw [hz] at this
      simpa using this
  · rintro (rfl | rfl) v
    · refine ⟨_, C128_flat reg hr g v, fun i => ?_⟩
      have hs0 : 0 ≤ g 0 * g 0 := mul_self_nonneg _
      have hd : reg + g 0 * g 0 ≠ 0 := by positivity
      fin_cases i
      simp only [Finset.univ_unique, Fin.default_eq_zero, Finset.sum_singleton, Nat.cast_one, one_mul, Fin.zero_eta]
      field_simp
      ring
    · refine ⟨_, C128_flat reg hr 0 v, fun i => ?_⟩
      simp
      field_simp

/-- **C128** (without regularisation). With `λ = 0` and at least two parameters the call always raises for a flattened parameter. -/
theorem C128_flat_unregularised (g v : Fin p → ℝ) (hp : 2 ≤ p) : ifvpExplicit (k := k) 0 (.vec g) v = none := by
  unfold ifvpExplicit linSolve
  rw [if_pos]
  rw [← exists_mulVec_eq_zero_iff]
  refine ⟨fun i => if i.1 = 0 then 1 else if i.1 = 1 then -1 else 0, fun h => ?_, ?_⟩
  · have := congrFun h ⟨0, by omega⟩
    simp at this
  · funext i
    rw [fimReg_vec_mulVec]
    have : (∑ l : Fin p, if l.1 = 0 then (1 : ℝ) else if l.1 = 1 then -1 else 0) = 0 := by
      obtain ⟨q, rfl⟩ : ∃ q, p = q + 2 := ⟨p - 2, by omega⟩
      rw [Fin.sum_univ_succ, Fin.sum_univ_succ]
      simp
    simp [this]

/-- **C128** (two-dimensional parameters). For a gradient given as a `p × k` matrix the result is the solution of
`(G Gᵀ + λ I) u = v`, which exists for every `λ > 0`; a parameter stored as a `p × 1` column thus gets the documented product. -/
theorem C128_matrix (reg : ℝ) (hr : 0 < reg) (G : Matrix (Fin p) (Fin k) ℝ) (v : Fin p → ℝ) :
    ∃ u, ifvpExplicit reg (.mat G) v = some u ∧ (G * Gᵀ) *ᵥ u + reg • u = v := by
  have hmv : ∀ u : Fin p → ℝ, fimReg reg (.mat G) *ᵥ u = (G * Gᵀ) *ᵥ u + reg • u := by
    intro u
    rw [fimReg, add_mulVec, smul_mulVec, one_mulVec]
  have hdet : (fimReg reg (.mat G)).det ≠ 0 := by
    rw [Ne, ← exists_mulVec_eq_zero_iff]
    rintro ⟨u, hu, h⟩
    rw [hmv] at h
    have h1 : u ⬝ᵥ ((G * Gᵀ) *ᵥ u + reg • u) = (Gᵀ *ᵥ u) ⬝ᵥ (Gᵀ *ᵥ u) + reg * (u ⬝ᵥ u) := by
      rw [dotProduct_add, dotProduct_smul, smul_eq_mul, ← mulVec_mulVec, dotProduct_mulVec, ← mulVec_transpose]
    rw [h, dotProduct_zero] at h1
    have h2 : 0 ≤ (Gᵀ *ᵥ u) ⬝ᵥ (Gᵀ *ᵥ u) := Finset.sum_nonneg fun l _ => mul_self_nonneg _
    have h3 : 0 ≤ u ⬝ᵥ u := Finset.sum_nonneg fun l _ => mul_self_nonneg _
    have h4 : u ⬝ᵥ u = 0 := by nlinarith
    exact hu (dotProduct_self_eq_zero.1 h4)
  refine ⟨_, by unfold ifvpExplicit linSolve; rw [if_neg hdet], ?_⟩
  rw [← hmv, mulVec_mulVec, mul_nonsing_inv _ hdet.isUnit, one_mulVec]

/-- Two parameters, `λ = 1`: the gradients `(1, 0)` and `(0, 1)` give the same product, `(2/3, -1/3)` for `v = (1, 0)`, while the documented
product is `(1/2, 0)` for the first. -/
example : ifvpExplicit (p := 2) (k := 0) (1 : ℝ) (.vec ![1, 0]) ![1, 0] = some ![2 / 3, -1 / 3] ∧
    ifvpExplicit (p := 2) (k := 0) (1 : ℝ) (.vec ![0, 1]) ![1, 0] = some ![2 / 3, -1 / 3] := by
  constructor <;>
  · rw [C128_flat 1 (by norm_num)]
    congr 1
    funext i
    fin_cases i <;> simp <;> norm_num

end Verif.Hessian
