import Verif.Hessian.CGProps

/-!
# C189: conjugate gradient for symmetric matrices that need not be positive definite
-/

namespace Verif.Hessian

open Matrix

variable {n : Nat}

/-! ### Helper lemmas -/

/-- The divisors of step `j`. -/
def StepOk (A : Matrix (Fin n) (Fin n) ℝ) (v : Fin n → ℝ) (j : Nat) : Prop :=
  (cgT A v j).g ⬝ᵥ (cgT A v j).g ≠ 0 ∧ (cgT A v j).d ⬝ᵥ A *ᵥ (cgT A v j).d ≠ 0

lemma inv_sym {A : Matrix (Fin n) (Fin n) ℝ} (hA : Aᵀ = A) (v : Fin n → ℝ) (k : Nat) (hok : ∀ j < k, StepOk A v j) :
    ∀ m ≤ k, Inv A v m := by
  intro m
  induction m using Nat.strong_induction_on with
  | _ m ih =>
    intro hmk
    cases m with
    | zero => exact ⟨rfl, by simp, by simp, by simp⟩
    | succ m =>
      have I := ih m (by omega) (by omega)
      have gg : ∀ j ≤ m, (cgT A v j).g ⬝ᵥ (cgT A v j).g ≠ 0 := fun j hj => (hok j (by omega)).1
      have dAd : ∀ j ≤ m, (cgT A v j).d ⬝ᵥ A *ᵥ (cgT A v j).d ≠ 0 := fun j hj => (hok j (by omega)).2
      -- step equations
      have eg : ∀ j, (cgT A v (j + 1)).g = (cgT A v j).g - (((cgT A v j).g ⬝ᵥ (cgT A v j).g) / ((cgT A v j).d ⬝ᵥ A *ᵥ (cgT A v j).d)) •
          A *ᵥ (cgT A v j).d := fun j => rfl
      have ed : ∀ j, (cgT A v (j + 1)).d = (cgT A v (j + 1)).g + (((cgT A v (j + 1)).g ⬝ᵥ (cgT A v (j + 1)).g) /
          ((cgT A v j).g ⬝ᵥ (cgT A v j).g)) • (cgT A v j).d := fun j => rfl
      have a1 : ∀ i < m + 1, (cgT A v (m + 1)).g ⬝ᵥ (cgT A v i).d = 0 := by
        intro i hi
        rw [eg, sub_dotProduct, smul_dotProduct, smul_eq_mul]
        rcases Nat.lt_succ_iff_lt_or_eq.1 hi with h | rfl
        · rw [I.gdi i h, dotProduct_comm (A *ᵥ _) (cgT A v i).d, symm_dot hA (cgT A v i).d, I.dad i h]; simp
        · rw [I.gd, dotProduct_comm (A *ᵥ _), div_mul_cancel₀ _ (dAd i (by omega)), sub_self]
      have a2 : ∀ i < m + 1, (cgT A v (m + 1)).g ⬝ᵥ (cgT A v i).g = 0 := by
        intro i hi
        cases i with
        | zero => exact a1 0 hi
        | succ i =>
          have := ed i
          have hg : (cgT A v (i + 1)).g = (cgT A v (i + 1)).d - (((cgT A v (i + 1)).g ⬝ᵥ (cgT A v (i + 1)).g) /
            ((cgT A v i).g ⬝ᵥ (cgT A v i).g)) • (cgT A v i).d := by
            exact eq_sub_of_add_eq this.symm
          rw [hg, dotProduct_sub, dotProduct_smul, a1 _ hi, a1 i (by omega)]
          simp
      refine ⟨?_, a1, a2, ?_⟩
      · rw [ed m, dotProduct_add, dotProduct_smul, a1 m (by omega)]
        simp
      · intro i hi
        have hAd : A *ᵥ (cgT A v i).d = (((cgT A v i).d ⬝ᵥ A *ᵥ (cgT A v i).d) / ((cgT A v i).g ⬝ᵥ (cgT A v i).g)) •
            ((cgT A v i).g - (cgT A v (i + 1)).g) := by
          rw [eg, sub_sub_cancel, smul_smul, div_mul_div_comm, mul_comm ((cgT A v i).d ⬝ᵥ _),
            div_self (mul_ne_zero (gg i (by omega)) (dAd i (by omega))), one_smul]
        rw [ed m, add_dotProduct, smul_dotProduct, smul_eq_mul]
        rcases Nat.lt_succ_iff_lt_or_eq.1 hi with h | rfl
        · rw [I.dad i h, hAd, dotProduct_smul, dotProduct_sub, a2 i hi, a2 (i + 1) (by omega)]
          simp
        · have h1 : (cgT A v (i + 1)).g ⬝ᵥ A *ᵥ (cgT A v i).d = - (((cgT A v i).d ⬝ᵥ A *ᵥ (cgT A v i).d) /
              ((cgT A v i).g ⬝ᵥ (cgT A v i).g)) * ((cgT A v (i + 1)).g ⬝ᵥ (cgT A v (i + 1)).g) := by
            conv_lhs => rw [hAd]
            rw [dotProduct_smul, dotProduct_sub, a2 i hi, smul_eq_mul]
            ring
          rw [h1]
          ring

lemma run_some (A : Matrix (Fin n) (Fin n) ℝ) (v : Fin n → ℝ) (k : Nat) (s : CG ℝ n) (h : cgRun A v k = some s) :
    s = cgT A v k ∧ ∀ j < k, StepOk A v j := by
  induction k generalizing s with
  | zero =>
    simp only [cgRun, Option.some.injEq] at h
    exact ⟨h.symm, by simp⟩
  | succ k ih =>
    simp only [cgRun, Option.bind_eq_some_iff] at h
    obtain ⟨t, ht, hs⟩ := h
    obtain ⟨rfl, hok⟩ := ih t ht
    simp only [cgStep] at hs
    split at hs
    · simp at hs
    · rename_i h1
      split at hs
      · simp at hs
      · rename_i h2
        simp only [Option.some.injEq] at hs
        refine ⟨hs.symm, fun j hj => ?_⟩
        rcases Nat.lt_succ_iff_lt_or_eq.1 hj with h | rfl
        · exact hok j h
        · exact ⟨h2, h1⟩

lemma run_ok (A : Matrix (Fin n) (Fin n) ℝ) (v : Fin n → ℝ) (k : Nat) (hok : ∀ j < k, StepOk A v j) : cgRun A v k = some (cgT A v k) := by
  induction k with
  | zero => rfl
  | succ k ih =>
    simp only [cgRun, ih (fun j hj => hok j (by omega)), Option.bind_some, cgStep, if_neg (hok k (by omega)).1, if_neg (hok k (by omega)).2]
    rfl

lemma exists_bad {A : Matrix (Fin n) (Fin n) ℝ} (hA : Aᵀ = A) (v : Fin n → ℝ) : ∃ k ≤ n, ¬ StepOk A v k := by
  by_contra hc
  push Not at hc
  have I := inv_sym hA v (n + 1) (fun j hj => hc j (by omega))
  have orth : ∀ i j : Fin (n + 1), i ≠ j → (cgT A v i).g ⬝ᵥ (cgT A v j).g = 0 := by
    intro i j hij
    rcases Nat.lt_or_gt_of_ne (Fin.val_ne_of_ne hij) with h | h
    · rw [dotProduct_comm]; exact (I j.1 (by omega)).ggi i.1 h
    · exact (I i.1 (by omega)).ggi j.1 h
  have li : LinearIndependent ℝ (fun i : Fin (n + 1) => (cgT A v i).g) := by
    rw [Fintype.linearIndependent_iff]
    intro c hcz i
    have h1 : (∑ j, c j • (cgT A v j.1).g) ⬝ᵥ (cgT A v i.1).g = 0 := by rw [hcz]; exact zero_dotProduct _
    rw [sum_dotProduct] at h1
    rw [Finset.sum_eq_single i] at h1
    · rw [smul_dotProduct, smul_eq_mul] at h1
      rcases mul_eq_zero.1 h1 with h | h
      · exact h
      · exact absurd h (hc i.1 (by omega)).1
    · intro j _ hj
      rw [smul_dotProduct, orth j i hj, smul_zero]
    · simp
  have := li.fintype_card_le_finrank
  simp at this

lemma self_dot_nonneg (u : Fin n → ℝ) : 0 ≤ u ⬝ᵥ u := Finset.sum_nonneg fun i _ => mul_self_nonneg (u i)

/-- All vectors of the iteration stay in the range if the right-hand side is there. -/
lemma run_range (A : Matrix (Fin n) (Fin n) ℝ) (v w : Fin n → ℝ) (hw : A *ᵥ w = v) (k : Nat) :
    (∃ y, A *ᵥ y = (cgT A v k).x) ∧ (∃ y, A *ᵥ y = (cgT A v k).g) ∧ ∃ y, A *ᵥ y = (cgT A v k).d := by
  induction k with
  | zero => exact ⟨⟨w, hw⟩, ⟨w - v, by rw [mulVec_sub, hw]; rfl⟩, ⟨w - v, by rw [mulVec_sub, hw]; rfl⟩⟩
  | succ k ih =>
    obtain ⟨⟨yx, hx⟩, ⟨yg, hg⟩, ⟨yd, hd⟩⟩ := ih
    set a := ((cgT A v k).g ⬝ᵥ (cgT A v k).g) / ((cgT A v k).d ⬝ᵥ A *ᵥ (cgT A v k).d) with ha
    have e1 : (cgT A v (k + 1)).x = (cgT A v k).x + a • (cgT A v k).d := rfl
    have e2 : (cgT A v (k + 1)).g = (cgT A v k).g - a • A *ᵥ (cgT A v k).d := rfl
    have e3 : (cgT A v (k + 1)).d = (cgT A v (k + 1)).g + (((cgT A v (k + 1)).g ⬝ᵥ (cgT A v (k + 1)).g) / ((cgT A v k).g ⬝ᵥ (cgT A v k).g)) • (cgT A v k).d := rfl
    have hg' : A *ᵥ (yg - a • (cgT A v k).d) = (cgT A v (k + 1)).g := by rw [mulVec_sub, mulVec_smul, hg, e2]
    refine ⟨⟨yx + a • yd, by rw [mulVec_add, mulVec_smul, hx, hd, e1]⟩, ⟨_, hg'⟩,
      ⟨(yg - a • (cgT A v k).d) + (((cgT A v (k + 1)).g ⬝ᵥ (cgT A v (k + 1)).g) / ((cgT A v k).g ⬝ᵥ (cgT A v k).g)) • yd, ?_⟩⟩
    rw [mulVec_add, mulVec_smul, hg', hd, e3]

/-- For a positive semi-definite matrix a vanishing quadratic form means a vanishing product. -/
lemma psd_zero {A : Matrix (Fin n) (Fin n) ℝ} (hA : Aᵀ = A) (hpos : ∀ u, 0 ≤ u ⬝ᵥ A *ᵥ u) (d : Fin n → ℝ) (hd : d ⬝ᵥ A *ᵥ d = 0) : A *ᵥ d = 0 := by
  have h : ∀ t : ℝ, 0 ≤ 2 * t * ((A *ᵥ d) ⬝ᵥ (A *ᵥ d)) + t ^ 2 * ((A *ᵥ d) ⬝ᵥ A *ᵥ (A *ᵥ d)) := by
    intro t
    have h1 := hpos (d + t • (A *ᵥ d))
    simp only [mulVec_add, mulVec_smul, add_dotProduct, dotProduct_add, smul_dotProduct, dotProduct_smul, smul_eq_mul, hd] at h1
    rw [symm_dot hA d (A *ᵥ d)] at h1
    linarith
  have hq := hpos (A *ᵥ d)
  have hs : 0 ≤ (A *ᵥ d) ⬝ᵥ (A *ᵥ d) := self_dot_nonneg _
  by_contra hne
  have hs' : 0 < (A *ᵥ d) ⬝ᵥ (A *ᵥ d) := lt_of_le_of_ne hs fun e => hne (dotProduct_self_eq_zero.1 e.symm)
  set s := (A *ᵥ d) ⬝ᵥ (A *ᵥ d)
  set q := (A *ᵥ d) ⬝ᵥ A *ᵥ (A *ᵥ d)
  have h2 := h (-(s / (q + 1)))
  have hq1 : 0 < q + 1 := by linarith
  have h3 : 2 * -(s / (q + 1)) * s + (-(s / (q + 1))) ^ 2 * q = -(s ^ 2 * (q + 2)) / (q + 1) ^ 2 := by
    field_simp
    ring
  rw [h3] at h2
  have : -(s ^ 2 * (q + 2)) / (q + 1) ^ 2 < 0 := div_neg_of_neg_of_pos (by nlinarith [sq_pos_of_pos hs']) (by positivity)
  linarith

/-! ### C189 -/

/-- **C189** (symmetric matrices). For every symmetric matrix of dimension `n` and every `v` there is a `k ≤ n` such that `max_iter ≤ k` gives a finite result and
`max_iter > k` a non-finite one, and no result with `max_iter < k` solves the system. -/
theorem C189_symmetric (A : Matrix (Fin n) (Fin n) ℝ) (hA : Aᵀ = A) (v : Fin n → ℝ) (tol : ℝ) :
    ∃ k ≤ n, (∀ m ≤ k, ∃ x, ihvpCG A m tol v = some x) ∧ (∀ m < k, ∀ x, ihvpCG A m tol v = some x → A *ᵥ x ≠ v) ∧ ∀ m > k, ihvpCG A m tol v = none := by
  classical
  obtain ⟨k0, hk0, hb0⟩ := exists_bad hA v
  have hex : ∃ k, ¬ StepOk A v k := ⟨k0, hb0⟩
  have hmin : ∀ j < Nat.find hex, StepOk A v j := fun j hj => not_not.1 (Nat.find_min hex hj)
  refine ⟨Nat.find hex, (Nat.find_min' hex hb0).trans hk0, fun m hm => ?_, fun m hm x hx he => ?_, fun m hm => ?_⟩
  · exact ⟨(cgT A v m).x, by rw [ihvpCG, run_ok A v m fun j hj => hmin j (by omega)]; rfl⟩
  · have hr := run_ok A v m fun j hj => hmin j (by omega)
    rw [ihvpCG, hr, Option.map_some, Option.some.injEq] at hx
    apply (hmin m hm).1
    rw [C21_residual A v m _ hr, hx, he, sub_self, dotProduct_zero]
  · cases hr : cgRun A v m with
    | none => rw [ihvpCG, hr]; rfl
    | some s => exact absurd ((run_some A v m s hr).2 _ hm) (Nat.find_spec hex)

/-- **C189** (singular systems). If the matrix is positive semi-definite and `v` is in its range, the last finite result solves the system, and no solution has a smaller
norm: it is the pseudo-inverse applied to `v`. -/
theorem C189_psd (A : Matrix (Fin n) (Fin n) ℝ) (hA : Aᵀ = A) (hpos : ∀ u, 0 ≤ u ⬝ᵥ A *ᵥ u) (v : Fin n → ℝ) (hv : ∃ w, A *ᵥ w = v) (tol : ℝ) :
    ∃ k ≤ n, ∃ x, ihvpCG A k tol v = some x ∧ A *ᵥ x = v ∧ (∀ y, A *ᵥ y = v → x ⬝ᵥ x ≤ y ⬝ᵥ y ∧ (y ⬝ᵥ y = x ⬝ᵥ x → y = x)) ∧
      (∀ m < k, ∀ x', ihvpCG A m tol v = some x' → A *ᵥ x' ≠ v) ∧ ∀ m > k, ihvpCG A m tol v = none := by
  obtain ⟨w, hw⟩ := hv
  obtain ⟨k, hk, hfin, hlt, hgt⟩ := C189_symmetric A hA v tol
  obtain ⟨x, hx⟩ := hfin k le_rfl
  obtain ⟨s, hs, rfl⟩ := Option.map_eq_some_iff.1 hx
  obtain ⟨rfl, hok⟩ := run_some A v k s hs
  have I := inv_sym hA v k hok k le_rfl
  have hbad : ¬ StepOk A v k := by
    intro hc
    have h1 := run_ok A v (k + 1) fun j hj => by
      rcases Nat.lt_succ_iff_lt_or_eq.1 hj with h | rfl
      · exact hok j h
      · exact hc
    have h2 := hgt (k + 1) (by omega)
    rw [ihvpCG, h1] at h2
    simp at h2
  obtain ⟨⟨yx, hyx⟩, ⟨yg, hyg⟩, -⟩ := run_range A v w hw k
  have hg0 : (cgT A v k).g = 0 := by
    by_contra hne
    have hgg : (cgT A v k).g ⬝ᵥ (cgT A v k).g ≠ 0 := fun h => hne (dotProduct_self_eq_zero.1 h)
    have hd : (cgT A v k).d ⬝ᵥ A *ᵥ (cgT A v k).d = 0 := by
      by_contra hc
      exact hbad ⟨hgg, hc⟩
    have hAd := psd_zero hA hpos _ hd
    apply hgg
    rw [← I.gd, dotProduct_comm, ← hyg, symm_dot hA, hAd, dotProduct_zero]
  have hsol : A *ᵥ (cgT A v k).x = v := by
    have := C21_residual A v k _ hs
    rw [hg0] at this
    exact (sub_eq_zero.1 this.symm).symm
  refine ⟨k, hk, _, hx, hsol, fun y hy => ?_, hlt, hgt⟩
  set x := (cgT A v k).x
  have hker : A *ᵥ (y - x) = 0 := by rw [mulVec_sub, hy, hsol, sub_self]
  have horth : x ⬝ᵥ (y - x) = 0 := by
    have h1 := symm_dot hA (y - x) yx
    rw [hyx, hker, dotProduct_zero, dotProduct_comm] at h1
    exact h1
  have hpyth : y ⬝ᵥ y = x ⬝ᵥ x + (y - x) ⬝ᵥ (y - x) := by
    have e : y = x + (y - x) := by rw [add_sub_cancel]
    conv_lhs => rw [e]
    rw [add_dotProduct, dotProduct_add, dotProduct_add, dotProduct_comm (y - x) x, horth]
    ring
  refine ⟨by rw [hpyth]; linarith [self_dot_nonneg (y - x)], fun he => ?_⟩
  have h0 : (y - x) ⬝ᵥ (y - x) = 0 := by linarith
  exact sub_eq_zero.1 (dotProduct_self_eq_zero.1 h0)

/-- **C189 (disagreement).** For a symmetric matrix that is not semi-definite the iteration can fail at once although the system has exactly one solution: with
`diag(2, -2)` and `(3, 1)` every positive `max_iter` gives a non-finite result, and `max_iter = 0` the vector itself, which is not a solution. -/
theorem C189_indefinite (tol : ℝ) :
    let A : Matrix (Fin 2) (Fin 2) ℝ := !![2, 0; 0, -2]
    Aᵀ = A ∧ (∀ y, A *ᵥ y = ![3, 1] ↔ y = ![3 / 2, -1 / 2]) ∧ ihvpCG A 0 tol ![3, 1] = some ![3, 1] ∧ ∀ m > 0, ihvpCG A m tol ![3, 1] = none := by
  intro A
  have hsym : Aᵀ = A := by ext i j; fin_cases i <;> fin_cases j <;> rfl
  refine ⟨hsym, fun y => ?_, rfl, fun m hm => ?_⟩
  · constructor
    · intro h
      have h0 := congrFun h 0
      have h1 := congrFun h 1
      simp [A, mulVec, dotProduct, Fin.sum_univ_two] at h0 h1
      funext i
      fin_cases i
      · simp; linarith
      · simp; linarith
    · rintro rfl
      funext i
      fin_cases i
      · simp [A, mulVec, dotProduct, Fin.sum_univ_two]
        norm_num
      · simp [A, mulVec, dotProduct, Fin.sum_univ_two]
        norm_num
  · obtain ⟨k, -, hfin, -, hgt⟩ := C189_symmetric A hsym ![3, 1] tol
    have hk : k = 0 := by
      by_contra hk
      obtain ⟨x, hx⟩ := hfin 1 (by omega)
      obtain ⟨s, hs, -⟩ := Option.map_eq_some_iff.1 hx
      apply ((run_some A _ 1 s hs).2 0 (by omega)).2
      have h1 : A *ᵥ ![3, 1] = ![6, -2] := by
        funext i
        fin_cases i
        · simp [A, mulVec, dotProduct, Fin.sum_univ_two]
          norm_num
        · simp [A, mulVec, dotProduct, Fin.sum_univ_two]
      have h2 : (cgT A ![3, 1] 0).d = ![-3, 3] := by
        change ![3, 1] - A *ᵥ ![3, 1] = _
        rw [h1]
        funext i
        fin_cases i
        · simp
          norm_num
        · simp
          norm_num
      rw [h2]
      simp [A, mulVec, dotProduct, Fin.sum_univ_two]
    exact hgt m (by omega)

/-- Non-vacuity: a singular positive semi-definite matrix and a vector in its range. -/
example : ∀ u : Fin 2 → ℝ, 0 ≤ u ⬝ᵥ (!![2, 0; 0, 0] : Matrix (Fin 2) (Fin 2) ℝ) *ᵥ u := fun u => by
  simp [dotProduct, mulVec, Fin.sum_univ_two]
  nlinarith [sq_nonneg (u 0)]

example : ihvpCG (R := ℚ) !![2, 0; 0, 0] 1 0 ![1, 0] = some ![1 / 2, 0] ∧ ihvpCG (R := ℚ) !![2, 0; 0, 0] 2 0 ![1, 0] = none ∧
    ihvpCG (R := ℚ) !![2, 0; 0, 0] 2 0 ![1, 1] = none := by decide +kernel

end Verif.Hessian
