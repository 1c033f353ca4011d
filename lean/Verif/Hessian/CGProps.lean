import Verif.Hessian.CGModel
import Mathlib.LinearAlgebra.Matrix.PosDef
import Mathlib.LinearAlgebra.Dimension.Constructions
import Mathlib.LinearAlgebra.FiniteDimensional.Lemmas
import Mathlib.Data.Real.Basic
import Mathlib.Tactic.FieldSimp
import Mathlib.Tactic.LinearCombination
import Mathlib.Tactic.NormNum
import Mathlib.Tactic.FinCases

/-! # C21-C23: conjugate gradient -/

namespace Verif.Hessian

open Matrix

section field
variable {R : Type} [Field R] [DecidableEq R] {n : Nat}

/-- **C21.** After every number of iterations that does not divide by zero, the maintained residual is the true residual
`v - A x` of the current iterate. For every square matrix over every field. -/
theorem C21_residual (A : Matrix (Fin n) (Fin n) R) (v : Fin n → R) (k : Nat) (s : CG R n) (h : cgRun A v k = some s) :
    s.g = v - A *ᵥ s.x := by
  induction k generalizing s with
  | zero =>
    simp only [cgRun, Option.some.injEq] at h
    subst h; rfl
  | succ k ih =>
    simp only [cgRun, Option.bind_eq_some_iff] at h
    obtain ⟨t, ht, hs⟩ := h
    have := ih t ht
    simp only [cgStep] at hs
    split at hs
    · simp at hs
    · split at hs
      · simp at hs
      · simp only [Option.some.injEq] at hs
        subst hs
        simp only [this, mulVec_add, mulVec_smul, sub_sub]

example : (cgRun (R := ℚ) !![2, 0; 0, 3] ![1, 1] 1).isSome = true := by decide +kernel

/-- Once the residual vanishes the direction vanishes too. -/
lemma dir_zero (A : Matrix (Fin n) (Fin n) R) (v : Fin n → R) (k : Nat) (s : CG R n) (h : cgRun A v k = some s) (hg : s.g = 0) :
    s.d = 0 := by
  cases k with
  | zero =>
    simp only [cgRun, Option.some.injEq] at h
    subst h; exact hg
  | succ k =>
    simp only [cgRun, Option.bind_eq_some_iff] at h
    obtain ⟨t, ht, hs⟩ := h
    simp only [cgStep] at hs
    split at hs
    · simp at hs
    · split at hs
      · simp at hs
      · simp only [Option.some.injEq] at hs
        subst hs
        simp only at hg
        simp [hg]

/-- **C23.** If the residual is exactly zero after `k` iterations (so the iterate solves the system), every larger `max_iter` returns a
non-finite result, whatever `tol` is. -/
theorem C23_breakdown (A : Matrix (Fin n) (Fin n) R) (v : Fin n → R) (k : Nat) (s : CG R n) (h : cgRun A v k = some s)
    (hg : s.g = 0) (m : Nat) (hm : k < m) (tol : R) : A *ᵥ s.x = v ∧ ihvpCG A m tol v = none := by
  refine ⟨?_, ?_⟩
  · have := C21_residual A v k s h
    rw [hg] at this
    exact (sub_eq_zero.1 this.symm).symm
  · have hd := dir_zero A v k s h hg
    have h1 : cgRun A v (k + 1) = none := by
      simp [cgRun, h, cgStep, hd]
    have hrun : ∀ j, cgRun A v (k + 1 + j) = none := by
      intro j
      induction j with
      | zero => exact h1
      | succ j ih => rw [← Nat.add_assoc]; simp [cgRun, ih]
    have := hrun (m - (k + 1))
    rw [Nat.add_sub_cancel' hm] at this
    simp [ihvpCG, this]

/-- **C23.** For the identity matrix the start vector is already the solution, so every `max_iter ≥ 1` fails, for every vector. -/
theorem C23_identity (v : Fin n → R) (m : Nat) (hm : 0 < m) (tol : R) : ihvpCG (1 : Matrix (Fin n) (Fin n) R) m tol v = none := by
  refine (C23_breakdown 1 v 0 (cgInit 1 v) rfl ?_ m hm tol).2
  simp [cgInit]

end field

/-! ## C22 -/

variable {n : Nat}

/-- The iteration with totalised division, as sequences. -/
noncomputable def cgT (A : Matrix (Fin n) (Fin n) ℝ) (v : Fin n → ℝ) : Nat → CG ℝ n
  | 0 => cgInit A v
  | k + 1 =>
    let s := cgT A v k
    let a := (s.g ⬝ᵥ s.g) / (s.d ⬝ᵥ A *ᵥ s.d)
    let g := s.g - a • A *ᵥ s.d
    ⟨s.x + a • s.d, g, g + ((g ⬝ᵥ g) / (s.g ⬝ᵥ s.g)) • s.d⟩

/-- Real symmetric positive definite, spelled out. -/
def SPD (A : Matrix (Fin n) (Fin n) ℝ) : Prop := Aᵀ = A ∧ ∀ u : Fin n → ℝ, u ≠ 0 → 0 < u ⬝ᵥ A *ᵥ u

lemma symm_dot {A : Matrix (Fin n) (Fin n) ℝ} (h : Aᵀ = A) (u w : Fin n → ℝ) : u ⬝ᵥ A *ᵥ w = w ⬝ᵥ A *ᵥ u := by
  rw [dotProduct_mulVec, ← mulVec_transpose, h, dotProduct_comm]

/-- The conjugacy invariants up to step `m`. -/
structure Inv (A : Matrix (Fin n) (Fin n) ℝ) (v : Fin n → ℝ) (m : Nat) : Prop where
  gd : (cgT A v m).g ⬝ᵥ (cgT A v m).d = (cgT A v m).g ⬝ᵥ (cgT A v m).g
  gdi : ∀ i < m, (cgT A v m).g ⬝ᵥ (cgT A v i).d = 0
  ggi : ∀ i < m, (cgT A v m).g ⬝ᵥ (cgT A v i).g = 0
  dad : ∀ i < m, (cgT A v m).d ⬝ᵥ A *ᵥ (cgT A v i).d = 0

lemma inv_all {A : Matrix (Fin n) (Fin n) ℝ} (hA : SPD A) (v : Fin n → ℝ) (k : Nat) (hne : ∀ j < k, (cgT A v j).g ≠ 0) :
    ∀ m ≤ k, Inv A v m := by
  intro m
  induction m using Nat.strong_induction_on with
  | _ m ih =>
    intro hmk
    cases m with
    | zero => exact ⟨rfl, by simp, by simp, by simp⟩
    | succ m =>
      have I := ih m (by omega) (by omega)
      have hgm : (cgT A v m).g ≠ 0 := hne m (by omega)
      have gg : ∀ j ≤ m, (cgT A v j).g ⬝ᵥ (cgT A v j).g ≠ 0 := by
        intro j hj h
        exact hne j (by omega) (dotProduct_self_eq_zero.1 h)
      have dAd : ∀ j ≤ m, (cgT A v j).d ⬝ᵥ A *ᵥ (cgT A v j).d ≠ 0 := by
        intro j hj
        have Ij := ih j (by omega) (by omega)
        refine (hA.2 _ ?_).ne'
        intro h0
        have := Ij.gd
        rw [h0, dotProduct_zero] at this
        exact gg j hj this.symm
      -- step equations
      have eg : ∀ j, (cgT A v (j + 1)).g = (cgT A v j).g - (((cgT A v j).g ⬝ᵥ (cgT A v j).g) / ((cgT A v j).d ⬝ᵥ A *ᵥ (cgT A v j).d)) •
          A *ᵥ (cgT A v j).d := fun j => rfl
      have ed : ∀ j, (cgT A v (j + 1)).d = (cgT A v (j + 1)).g + (((cgT A v (j + 1)).g ⬝ᵥ (cgT A v (j + 1)).g) /
          ((cgT A v j).g ⬝ᵥ (cgT A v j).g)) • (cgT A v j).d := fun j => rfl
      have a1 : ∀ i < m + 1, (cgT A v (m + 1)).g ⬝ᵥ (cgT A v i).d = 0 := by
        intro i hi
        rw [eg, sub_dotProduct, smul_dotProduct, smul_eq_mul]
        rcases Nat.lt_succ_iff_lt_or_eq.1 hi with h | rfl
        · rw [I.gdi i h, dotProduct_comm (A *ᵥ _) (cgT A v i).d, symm_dot hA.1 (cgT A v i).d, I.dad i h]; simp
        · rw [I.gd, dotProduct_comm (A *ᵥ _), div_mul_cancel₀ _ (dAd i (by omega)), sub_self]
      have a2 : ∀ i < m + 1, (cgT A v (m + 1)).g ⬝ᵥ (cgT A v i).g = 0 := by
        intro i hi
        cases i with
        | zero => exact a1 0 hi
        | succ i =>
          have := ed i
          have hg : (cgT A v (i + 1)).g = (cgT A v (i + 1)).d - (((cgT A v (i + 1)).g ⬝ᵥ (cgT A v (i + 1)).g) /
            ((cgT A v i).g ⬝ᵥ (cgT A v i).g)) • (cgT A v i).d := by
            exact eq_sub_of_add_eq this.symm
          rw [hg, dotProduct_sub, dotProduct_smul, a1 _ hi, a1 i (by omega)]
          simp
      refine ⟨?_, a1, a2, ?_⟩
      · rw [ed m, dotProduct_add, dotProduct_smul, a1 m (by omega)]
        simp
      · intro i hi
        have hAd : A *ᵥ (cgT A v i).d = (((cgT A v i).d ⬝ᵥ A *ᵥ (cgT A v i).d) / ((cgT A v i).g ⬝ᵥ (cgT A v i).g)) •
            ((cgT A v i).g - (cgT A v (i + 1)).g) := by
          rw [eg, sub_sub_cancel, smul_smul, div_mul_div_comm, mul_comm ((cgT A v i).d ⬝ᵥ _),
            div_self (mul_ne_zero (gg i (by omega)) (dAd i (by omega))), one_smul]
        rw [ed m, add_dotProduct, smul_dotProduct, smul_eq_mul]
        rcases Nat.lt_succ_iff_lt_or_eq.1 hi with h | rfl
        · rw [I.dad i h, hAd, dotProduct_smul, dotProduct_sub, a2 i hi, a2 (i + 1) (by omega)]
          simp
        · have h1 : (cgT A v (i + 1)).g ⬝ᵥ A *ᵥ (cgT A v i).d = - (((cgT A v i).d ⬝ᵥ A *ᵥ (cgT A v i).d) /
              ((cgT A v i).g ⬝ᵥ (cgT A v i).g)) * ((cgT A v (i + 1)).g ⬝ᵥ (cgT A v (i + 1)).g) := by
            conv_lhs => rw [hAd]
            rw [dotProduct_smul, dotProduct_sub, a2 i hi, smul_eq_mul]
            ring
          rw [h1]
          ring

lemma run_eq {A : Matrix (Fin n) (Fin n) ℝ} (hA : SPD A) (v : Fin n → ℝ) (k : Nat) (hne : ∀ j < k, (cgT A v j).g ≠ 0) :
    cgRun A v k = some (cgT A v k) := by
  induction k with
  | zero => rfl
  | succ k ih =>
    have I := inv_all hA v (k + 1) hne k (by omega)
    have hg : (cgT A v k).g ⬝ᵥ (cgT A v k).g ≠ 0 := fun h => hne k (by omega) (dotProduct_self_eq_zero.1 h)
    have hd : (cgT A v k).d ⬝ᵥ A *ᵥ (cgT A v k).d ≠ 0 := by
      refine (hA.2 _ ?_).ne'
      intro h0
      have := I.gd
      rw [h0, dotProduct_zero] at this
      exact hg this.symm
    simp only [cgRun, ih (fun j hj => hne j (by omega)), Option.bind_some, cgStep, if_neg hd, if_neg hg]
    rfl

/-- More than `n` non-zero mutually orthogonal vectors do not exist in dimension `n`. -/
lemma exists_zero {A : Matrix (Fin n) (Fin n) ℝ} (hA : SPD A) (v : Fin n → ℝ) : ∃ k ≤ n, (cgT A v k).g = 0 := by
  by_contra hc
  push Not at hc
  have I := inv_all hA v (n + 1) (fun j hj => hc j (by omega))
  have orth : ∀ i j : Fin (n + 1), i ≠ j → (cgT A v i).g ⬝ᵥ (cgT A v j).g = 0 := by
    intro i j hij
    rcases Nat.lt_or_gt_of_ne (Fin.val_ne_of_ne hij) with h | h
    · rw [dotProduct_comm]; exact (I j.1 (by omega)).ggi i.1 h
    · exact (I i.1 (by omega)).ggi j.1 h
  have li : LinearIndependent ℝ (fun i : Fin (n + 1) => (cgT A v i).g) := by
    rw [Fintype.linearIndependent_iff]
    intro c hcz i
    have h1 : (∑ j, c j • (cgT A v j.1).g) ⬝ᵥ (cgT A v i.1).g = 0 := by rw [hcz]; exact zero_dotProduct _
    rw [sum_dotProduct] at h1
    rw [Finset.sum_eq_single i] at h1
    · rw [smul_dotProduct, smul_eq_mul] at h1
      rcases mul_eq_zero.1 h1 with h | h
      · exact h
      · exact absurd (dotProduct_self_eq_zero.1 h) (hc i.1 (by omega))
    · intro j _ hj
      rw [smul_dotProduct, orth j i hj, smul_zero]
    · simp
  have := li.fintype_card_le_finrank
  simp at this

/-- **C22/C23.** For every symmetric positive definite `A` of dimension `n` and every vector `v` there is a `k ≤ n` such that
`max_iter = k` returns the exact solution of `A x = v`, every smaller `max_iter` returns a finite vector that does not solve the
system, and every larger `max_iter` returns a non-finite result. -/
theorem C22_cg_exact (A : Matrix (Fin n) (Fin n) ℝ) (hA : SPD A) (v : Fin n → ℝ) (tol : ℝ) :
    ∃ k ≤ n, (∃ x, ihvpCG A k tol v = some x ∧ A *ᵥ x = v) ∧
      (∀ m < k, ∃ x, ihvpCG A m tol v = some x ∧ A *ᵥ x ≠ v) ∧ (∀ m > k, ihvpCG A m tol v = none) := by
  classical
  have hex := exists_zero hA v
  have hex' : ∃ k, (cgT A v k).g = 0 := ⟨_, hex.choose_spec.2⟩
  set k := Nat.find hex' with hk
  have hmin : ∀ j < k, (cgT A v j).g ≠ 0 := fun j hj => Nat.find_min hex' hj
  have hzero : (cgT A v k).g = 0 := Nat.find_spec hex'
  have hrun := run_eq hA v k hmin
  refine ⟨k, (Nat.find_min' hex' hex.choose_spec.2).trans hex.choose_spec.1, ⟨(cgT A v k).x, by simp [ihvpCG, hrun], ?_⟩, ?_, ?_⟩
  · exact (C23_breakdown A v k _ hrun hzero (k + 1) (by omega) tol).1
  · intro m hm
    have hr := run_eq hA v m (fun j hj => hmin j (by omega))
    refine ⟨(cgT A v m).x, by simp [ihvpCG, hr], fun he => hmin m hm ?_⟩
    rw [C21_residual A v m _ hr, he, sub_self]
  · intro m hm
    exact (C23_breakdown A v k _ hrun hzero m hm tol).2

/-- **C22.** Successive residuals are orthogonal and directions are conjugate as long as residuals are non-zero. -/
theorem C22_orthogonal_conjugate (A : Matrix (Fin n) (Fin n) ℝ) (hA : SPD A) (v : Fin n → ℝ) (i m : Nat) (him : i < m) (s t : CG ℝ n)
    (hs : cgRun A v i = some s) (ht : cgRun A v m = some t) : t.g ⬝ᵥ s.g = 0 ∧ t.d ⬝ᵥ A *ᵥ s.d = 0 := by
  have hne : ∀ j < m, (cgT A v j).g ≠ 0 := by
    by_contra hc
    push Not at hc
    classical
    have hex' : ∃ j, (cgT A v j).g = 0 := ⟨_, hc.choose_spec.2⟩
    have hlt : Nat.find hex' < m := lt_of_le_of_lt (Nat.find_min' hex' hc.choose_spec.2) hc.choose_spec.1
    have hr := run_eq hA v _ (fun j hj => Nat.find_min hex' hj)
    have := (C23_breakdown A v _ _ hr (Nat.find_spec hex') m hlt 0).2
    simp [ihvpCG, ht] at this
  have e1 := run_eq hA v i (fun j hj => hne j (by omega))
  have e2 := run_eq hA v m hne
  rw [hs] at e1
  rw [ht] at e2
  simp only [Option.some.injEq] at e1 e2
  subst e1 e2
  have I := inv_all hA v m hne m le_rfl
  exact ⟨I.ggi i him, I.dad i him⟩

/-- Non-vacuity: a concrete SPD matrix. -/
example : SPD (!![2, 0; 0, 3] : Matrix (Fin 2) (Fin 2) ℝ) := by
  refine ⟨by ext i j; fin_cases i <;> fin_cases j <;> rfl, fun u hu => ?_⟩
  have : u 0 ≠ 0 ∨ u 1 ≠ 0 := by
    by_contra h
    push Not at h
    exact hu (by funext i; fin_cases i <;> simp [h])
  simp [dotProduct, mulVec, Fin.sum_univ_two]
  rcases this with h | h
  · nlinarith [sq_nonneg (u 1), (sq_pos_of_ne_zero h : 0 < u 0 ^ 2)]
  · nlinarith [sq_nonneg (u 0), (sq_pos_of_ne_zero h : 0 < u 1 ^ 2)]

example : (ihvpCG (R := ℚ) !![2, 0; 0, 3] 2 0 ![1, 1]) = some ![1 / 2, 1 / 3] ∧ (ihvpCG (R := ℚ) !![2, 0; 0, 3] 3 0 ![1, 1]) = none := by
  decide +kernel

end Verif.Hessian
