import Verif.Hessian.LissaModel
import Mathlib.LinearAlgebra.Matrix.NonsingularInverse
import Mathlib.Analysis.SpecificLimits.Basic
import Mathlib.Analysis.Normed.Group.Constructions
import Mathlib.Analysis.Normed.Module.Basic
import Mathlib.Analysis.Normed.Ring.Basic
import Mathlib.Data.List.ReduceOption
import Mathlib.Tactic.FieldSimp
import Mathlib.Tactic.Module
import Mathlib.Tactic.NormNum
import Mathlib.Tactic.FinCases

/-! # C24, C25: LiSSA -/

namespace Verif.Hessian

open Matrix

variable {R : Type} [Field R] [DecidableEq R] {n : Nat}

/-- Specification: the iteration matrix `I - (d I + H/s)`. -/
def iterMat (H : Matrix (Fin n) (Fin n) R) (d s : R) : Matrix (Fin n) (Fin n) R := 1 - (d • 1 + s⁻¹ • H)

omit [DecidableEq R] in
lemma lissaRec_succ (hv : List Nat → Matrix (Fin n) (Fin n) R) (perm : Nat → List Nat) (bs : Nat) (d s : R) (v : Fin n → R) (t : Nat) :
    lissaRec hv perm bs d s v (t + 1)
      = v + iterMat (hv (sampleBatch (perm t) bs)) d s *ᵥ lissaRec hv perm bs d s v t := by
  simp only [lissaRec, iterMat, sub_mulVec, add_mulVec, one_mulVec, smul_mulVec, one_div]
  module

omit [DecidableEq R] in
/-- With a deterministic Hessian `H` the recursion is the truncated Neumann series. -/
lemma lissaRec_neumann (hv : List Nat → Matrix (Fin n) (Fin n) R) (perm : Nat → List Nat) (bs : Nat) (H : Matrix (Fin n) (Fin n) R)
    (hH : ∀ t, hv (sampleBatch (perm t) bs) = H) (d s : R) (v : Fin n → R) (T : Nat) :
    lissaRec hv perm bs d s v T = (∑ k ∈ Finset.range (T + 1), iterMat H d s ^ k) *ᵥ v := by
  induction T with
  | zero => simp [lissaRec]
  | succ T ih =>
    rw [lissaRec_succ, hH, ih, mulVec_mulVec, Finset.mul_sum, Finset.sum_range_succ' _ (T + 1), add_mulVec, pow_zero, one_mulVec,
      add_comm]
    congr 2
    exact Finset.sum_congr rfl fun k _ => (pow_succ' _ _).symm

/-- Result of `ihvp_lissa` when every sampled batch has the same Hessian. -/
lemma ihvpLissa_det [CharZero R] (hv : List Nat → Matrix (Fin n) (Fin n) R) (perm : Nat → Nat → List Nat) (bs rep T : Nat)
    (H : Matrix (Fin n) (Fin n) R) (hH : ∀ r t, hv (sampleBatch (perm r t) bs) = H) (d s : R) (v : Fin n → R) (hrep : 0 < rep)
    (hs : s ≠ 0) :
    ihvpLissa hv perm bs rep T d s v = .ok (some (s⁻¹ • ((∑ k ∈ Finset.range (T + 1), iterMat H d s ^ k) *ᵥ v))) := by
  simp only [ihvpLissa, if_neg hrep.ne', if_neg hs]
  congr 2
  simp only [lissaRec_neumann hv _ bs H (hH _) d s v T, one_div, List.map_const', List.length_range, List.sum_replicate]
  have : (rep : R) ≠ 0 := by exact_mod_cast hrep.ne'
  rw [← Nat.cast_smul_eq_nsmul R, smul_smul, inv_mul_cancel₀ this, one_smul]

/-- **C24.** With a deterministic Hessian, depth-`T` LiSSA returns `x` with
`(d I + H/s) (s x) = v - (I - d I - H/s)^(T+1) v`, for every operator, vector, damping, scaling and number of repeats. -/
theorem C24_lissa_neumann [CharZero R] (hv : List Nat → Matrix (Fin n) (Fin n) R) (perm : Nat → Nat → List Nat) (bs rep T : Nat)
    (H : Matrix (Fin n) (Fin n) R) (hH : ∀ r t, hv (sampleBatch (perm r t) bs) = H) (d s : R) (v : Fin n → R) (hrep : 0 < rep)
    (hs : s ≠ 0) :
    ∃ x, ihvpLissa hv perm bs rep T d s v = .ok (some x) ∧
      (d • (1 : Matrix (Fin n) (Fin n) R) + s⁻¹ • H) *ᵥ (s • x) = v - (1 - (d • 1 + s⁻¹ • H)) ^ (T + 1) *ᵥ v := by
  refine ⟨_, ihvpLissa_det hv perm bs rep T H hH d s v hrep hs, ?_⟩
  rw [smul_smul, mul_inv_cancel₀ hs, one_smul, mulVec_mulVec]
  have h1 : d • (1 : Matrix (Fin n) (Fin n) R) + s⁻¹ • H = 1 - iterMat H d s := by simp [iterMat]
  have h2 : (1 - iterMat H d s) * (∑ k ∈ Finset.range (T + 1), iterMat H d s ^ k) = 1 - iterMat H d s ^ (T + 1) := by
    rw [mul_neg_geom_sum]
  rw [h1, h2, sub_mulVec, one_mulVec, sub_sub_cancel]

omit [DecidableEq R] in
/-- **C24.** The system solved in the limit is `(H + s d I) x = v`: it is the fixed-point equation of the recursion. -/
theorem C24_fixed_point (H : Matrix (Fin n) (Fin n) R) (d s : R) (hs : s ≠ 0) (v y : Fin n → R) :
    y = v + (1 - d) • y - (1 / s) • (H *ᵥ y) ↔ (H + (s * d) • 1) *ᵥ (s⁻¹ • y) = v := by
  rw [add_mulVec, smul_mulVec, one_mulVec, mulVec_smul, smul_smul, one_div]
  rw [show s * d * s⁻¹ = d by field_simp]
  constructor
  · intro h
    have := congrArg (fun z => z - y + s⁻¹ • (H *ᵥ y) + d • y) h
    have e : v = y - y + s⁻¹ • (H *ᵥ y) + d • y := by rw [this]; module
    rw [e]; module
  · intro h
    rw [← h]; module

/-- **C24.** Convergence: if `x*` solves `(H + s d I) x* = v` and the iteration matrix contracts the maximum norm by `ρ < 1`, the LiSSA
result converges to `x*` as the recursion depth grows, with error at most `ρ^T ‖v - s x*‖ / |s|`. -/
theorem C24_lissa_converges {n : Nat} (hv : List Nat → Matrix (Fin n) (Fin n) ℝ) (perm : Nat → Nat → List Nat) (bs rep : Nat)
    (H : Matrix (Fin n) (Fin n) ℝ) (hH : ∀ r t, hv (sampleBatch (perm r t) bs) = H) (d s : ℝ) (v xs : Fin n → ℝ) (hrep : 0 < rep)
    (hs : s ≠ 0) (hx : (H + (s * d) • 1) *ᵥ xs = v) (ρ : ℝ) (h0 : 0 ≤ ρ) (h1 : ρ < 1)
    (hc : ∀ u : Fin n → ℝ, ‖(1 - (d • 1 + s⁻¹ • H)) *ᵥ u‖ ≤ ρ * ‖u‖) :
    ∃ x : Nat → Fin n → ℝ, (∀ T, ihvpLissa hv perm bs rep T d s v = .ok (some (x T))) ∧
      (∀ T, ‖x T - xs‖ ≤ ρ ^ T * ‖v - s • xs‖ / |s|) ∧ Filter.Tendsto x Filter.atTop (nhds xs) := by
  classical
  set M := iterMat H d s with hM
  refine ⟨fun T => s⁻¹ • ((∑ k ∈ Finset.range (T + 1), M ^ k) *ᵥ v), fun T => ihvpLissa_det hv perm bs rep T H hH d s v hrep hs, ?_⟩
  have hfix : s • xs = v + M *ᵥ (s • xs) := by
    have := (C24_fixed_point H d s hs v (s • xs)).2 (by rw [smul_smul, inv_mul_cancel₀ hs, one_smul]; exact hx)
    refine this.trans ?_
    simp only [hM, iterMat, sub_mulVec, add_mulVec, one_mulVec, smul_mulVec, one_div]
    module
  have hcurr : ∀ T, ‖(∑ k ∈ Finset.range (T + 1), M ^ k) *ᵥ v - s • xs‖ ≤ ρ ^ T * ‖v - s • xs‖ := by
    intro T
    induction T with
    | zero => simp
    | succ T ih =>
      have e : (∑ k ∈ Finset.range (T + 1 + 1), M ^ k) *ᵥ v = v + M *ᵥ ((∑ k ∈ Finset.range (T + 1), M ^ k) *ᵥ v) := by
        rw [mulVec_mulVec, Finset.mul_sum, Finset.sum_range_succ' _ (T + 1), add_mulVec, pow_zero, one_mulVec, add_comm]
        congr 2
        exact Finset.sum_congr rfl fun k _ => pow_succ' _ _
      rw [e]
      nth_rewrite 1 [hfix]
      rw [add_sub_add_left_eq_sub, ← mulVec_sub]
      refine (hc _).trans ?_
      rw [pow_succ, mul_comm (ρ ^ T), mul_assoc]
      exact mul_le_mul_of_nonneg_left ih h0
  have hbound : ∀ T, ‖s⁻¹ • ((∑ k ∈ Finset.range (T + 1), M ^ k) *ᵥ v) - xs‖ ≤ ρ ^ T * ‖v - s • xs‖ / |s| := by
    intro T
    have : s⁻¹ • ((∑ k ∈ Finset.range (T + 1), M ^ k) *ᵥ v) - xs
        = s⁻¹ • ((∑ k ∈ Finset.range (T + 1), M ^ k) *ᵥ v - s • xs) := by
      rw [smul_sub, smul_smul, inv_mul_cancel₀ hs, one_smul]
    rw [this, norm_smul, norm_inv, Real.norm_eq_abs, inv_mul_eq_div]
    exact div_le_div_of_nonneg_right (hcurr T) (abs_nonneg s)
  refine ⟨hbound, ?_⟩
  rw [tendsto_iff_norm_sub_tendsto_zero]
  refine squeeze_zero (fun _ => norm_nonneg _) hbound ?_
  have := ((tendsto_pow_atTop_nhds_zero_of_lt_one h0 h1).mul_const ‖v - s • xs‖).div_const |s|
  simpa using this

/-- Non-vacuity of the contraction hypothesis: `H = 2 I`, `d = 0`, `s = 4`, `ρ = 1/2`. -/
example : ∀ u : Fin 2 → ℝ, ‖(1 - ((0 : ℝ) • (1 : Matrix (Fin 2) (Fin 2) ℝ) + (4 : ℝ)⁻¹ • ((2 : ℝ) • 1))) *ᵥ u‖ ≤ 1 / 2 * ‖u‖ := by
  intro u
  have : (1 - ((0 : ℝ) • (1 : Matrix (Fin 2) (Fin 2) ℝ) + (4 : ℝ)⁻¹ • ((2 : ℝ) • 1))) *ᵥ u = (1 / 2 : ℝ) • u := by
    rw [sub_mulVec, add_mulVec, smul_mulVec, smul_mulVec, smul_mulVec, one_mulVec]; module
  rw [this, norm_smul]; norm_num

example : ihvpLissa (R := ℚ) (n := 1) (fun _ => !![2]) (fun _ _ => [0]) 1 3 2 0 4 ![1] = .ok (some ![7 / 16]) := by
  rw [ihvpLissa_det _ _ _ _ _ !![2] (fun _ _ => rfl) _ _ _ (by norm_num) (by norm_num)]
  congr 2
  funext i
  fin_cases i
  simp [iterMat, Finset.sum_range_succ, pow_two, mulVec, dotProduct, mul_apply]
  norm_num

/-- **C24 (errors).** Zero repeats raise; zero scaling gives a non-finite result. -/
theorem C24_errors (hv : List Nat → Matrix (Fin n) (Fin n) R) (perm : Nat → Nat → List Nat) (bs rep T : Nat) (d s : R) (v : Fin n → R) :
    (rep = 0 → ihvpLissa hv perm bs rep T d s v = .error .runtimeError) ∧
    (0 < rep → s = 0 → ihvpLissa hv perm bs rep T d s v = .ok none) := by
  refine ⟨fun h => by simp [ihvpLissa, h], fun h h' => by simp [ihvpLissa, h.ne', h']⟩

/-- **C25.** `ihvp_at_x_lissa` with `batch_size = b`, `num_repeat = r` returns what the documented call returns for all
Hessians, samplings and vectors, if and only if `b = r` (for positive `b`, `r`). -/
theorem C25_swapped_iff (b r : Nat) (hb : 0 < b) (hr : 0 < r) :
    (∀ (n : Nat) (hv : List Nat → Matrix (Fin n) (Fin n) ℚ) (perm : Nat → Nat → List Nat) (T : Nat) (d s : ℚ) (v : Fin n → ℚ),
      ihvpAtXLissa hv perm b r T d s v = ihvpLissa hv perm b r T d s v) ↔ b = r := by
  constructor
  · intro h
    by_contra hne
    have h1 := h 1 (fun l => Matrix.of (fun _ _ => (l.length : ℚ))) (fun _ _ => List.range (b + r)) 1 0 1 (fun _ => 1)
    simp only [ihvpAtXLissa] at h1
    have key : ∀ b' r' : Nat, 0 < r' → b' ≤ b + r →
        ihvpLissa (n := 1) (fun l => Matrix.of (fun _ _ => (l.length : ℚ))) (fun _ _ => List.range (b + r)) b' r' 1 0 1 (fun _ => 1)
          = .ok (some (fun _ => 2 - (b' : ℚ))) := by
      intro b' r' hr' hb'
      simp only [ihvpLissa, if_neg hr'.ne', if_neg one_ne_zero, List.map_const', List.length_range, List.sum_replicate]
      congr 2
      have : (r' : ℚ) ≠ 0 := by exact_mod_cast hr'.ne'
      rw [← Nat.cast_smul_eq_nsmul ℚ, smul_smul, inv_mul_cancel₀ this, one_smul]
      funext i
      simp [lissaRec, sampleBatch, mulVec, dotProduct, min_eq_left hb']
      norm_num
    rw [key r b hb (by omega), key b r hr (by omega)] at h1
    simp only [Except.ok.injEq, Option.some.injEq] at h1
    have h2 := congrFun h1 0
    have : (r : ℚ) = b := by linarith
    exact hne (by exact_mod_cast this.symm)
  · rintro rfl n hv perm T d s v
    rfl

/-- **C25.** In particular `ihvp_at_x_lissa(..., batch_size=0, num_repeat=1)` raises although the documented call does not, and a large
`batch_size` multiplies the running time instead of enlarging the batches: the call is the documented call with both exchanged. -/
theorem C25_swapped (b r T : Nat) (hv : List Nat → Matrix (Fin n) (Fin n) R) (perm : Nat → Nat → List Nat) (d s : R) (v : Fin n → R) :
    ihvpAtXLissa hv perm b r T d s v = ihvpLissa hv perm r b T d s v := rfl

/-- `_check_input_size`: all batched arguments must have the same size, which is returned (1 when there are none). -/
theorem C24_check_input_size (sizes : List (Option Nat)) :
    (∀ m, checkInputSize sizes = .ok m ↔ (∀ k ∈ sizes.reduceOption, k = m) ∧ (sizes.reduceOption = [] → m = 1)) := by
  intro m
  have key : ∀ (l : List (Option Nat)) (acc : Option Nat) (r : Option Nat), l.foldlM (fun (acc : Option Nat) d =>
      match d, acc with
      | none, a => Except.ok (ε := Err) a
      | some k, none => .ok (some k)
      | some k, some m => if m ≠ k then .error .valueError else .ok (some m)) acc = .ok r ↔
      (∀ k ∈ acc.toList ++ l.reduceOption, some k = r) ∧ (acc.toList ++ l.reduceOption = [] → r = none) := by
    intro l
    induction l with
    | nil =>
      intro acc r
      cases acc <;> cases r <;> simp [pure, Except.pure]
    | cons a l ih =>
      intro acc r
      rw [List.foldlM_cons]
      cases a with
      | none =>
        cases acc <;> simp only [bind, Except.bind, ih, List.reduceOption_cons_of_none]
      | some k =>
        cases acc with
        | none => simp only [bind, Except.bind, ih, List.reduceOption_cons_of_some]; simp
        | some m =>
          by_cases h : m = k
          · subst h
            simp only [ne_eq, not_true, if_false, bind, Except.bind, ih, List.reduceOption_cons_of_some]
            simp
          · simp only [ne_eq, h, not_false_iff, if_true, bind, Except.bind, List.reduceOption_cons_of_some]
            simp only [reduceCtorEq, false_iff, not_and]
            intro h1
            have e1 := h1 m (by simp)
            have e2 := h1 k (by simp)
            exact absurd (by simpa using e1.trans e2.symm) h
  unfold checkInputSize
  cases hres : sizes.foldlM (fun (acc : Option Nat) d =>
      match d, acc with
      | none, a => Except.ok (ε := Err) a
      | some k, none => .ok (some k)
      | some k, some m => if m ≠ k then .error .valueError else .ok (some m)) (none : Option Nat) with
  | error e =>
    simp only [bind, Except.bind, reduceCtorEq, false_iff, not_and]
    intro h1 h2
    cases hro : sizes.reduceOption with
    | nil =>
      have := (key sizes none none).2 (by simp [hro])
      rw [hres] at this
      simp at this
    | cons k ks =>
      have := (key sizes none (some m)).2 (by
        refine ⟨fun k hk => by rw [h1 k (by simpa using hk)], by simp [hro]⟩)
      rw [hres] at this
      simp at this
  | ok r =>
    have hk := (key sizes none r).1 hres
    simp only [bind, Except.bind, pure, Except.pure, Except.ok.injEq]
    constructor
    · rintro rfl
      refine ⟨fun k hkm => ?_, fun he => ?_⟩
      · have := hk.1 k (by simpa using hkm)
        rw [← this]; rfl
      · rw [hk.2 (by simpa using he)]; rfl
    · rintro ⟨h1, h2⟩
      cases hro : sizes.reduceOption with
      | nil => rw [hk.2 (by simp [hro]), h2 hro]; rfl
      | cons k ks =>
        have e1 := hk.1 k (by simp [hro])
        rw [← e1, ← h1 k (by simp [hro])]
        rfl

end Verif.Hessian
