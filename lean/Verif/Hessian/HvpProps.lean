import Verif.Hessian.HvpModel
import Verif.Hessian.CGProps
import Mathlib.Analysis.Calculus.FDeriv.Mul
import Mathlib.Analysis.Calculus.FDeriv.Add

/-! # C133: Hessian-vector products -/

namespace Verif.Hessian

open Matrix Verif.Attr

variable {n : ℕ} {p : Fin n → ℕ}

/-- Specification: `f` is twice differentiable at `x`, with second derivative `D` (a bilinear map). -/
def Twice (f : Args p → ℝ) (x : Args p) (D : Args p →L[ℝ] Args p →L[ℝ] ℝ) : Prop :=
  (∀ᶠ y in nhds x, DifferentiableAt ℝ f y) ∧ HasFDerivAt (fderiv ℝ f) D x

/-- Specification: the second partial derivatives by the entries of argument `a`. -/
noncomputable def second (D : Args p →L[ℝ] Args p →L[ℝ] ℝ) (a : Fin n) : Matrix (Fin (p a)) (Fin (p a)) ℝ :=
  Matrix.of fun j k => D (Pi.single a (Pi.single j 1)) (Pi.single a (Pi.single k 1))

/-! ### Helper lemmas -/

theorem Twice.symm {f : Args p → ℝ} {x : Args p} {D : Args p →L[ℝ] Args p →L[ℝ] ℝ} (h : Twice f x D)
    (u w : Args p) : D u w = D w u :=
  second_derivative_symmetric_of_eventually (h.1.mono fun _ hy => hy.hasFDerivAt) h.2 u w

theorem Twice.grad {f : Args p → ℝ} {x : Args p} {D : Args p →L[ℝ] Args p →L[ℝ] ℝ} (h : Twice f x D)
    (a : Fin n) (j : Fin (p a)) (t : Args p) :
    fderiv ℝ (fun y => gradF f a y j) x t = D t (unitArg a j) := by
  have := (h.2.clm_apply (hasFDerivAt_const (unitArg a j) x)).fderiv
  unfold gradF
  rw [this]
  simp

theorem single_eq_sum (a : Fin n) (v : Fin (p a) → ℝ) :
    (Pi.single a v : Args p) = ∑ k, v k • unitArg a k := by
  funext i k
  by_cases h : i = a
  · subst h
    simp [unitArg, Finset.sum_apply, Pi.single_apply]
  · simp [unitArg, Finset.sum_apply, Pi.single_eq_of_ne h]

theorem apply_single (L : Args p →L[ℝ] ℝ) (a : Fin n) (v : Fin (p a) → ℝ) :
    L (Pi.single a v) = ∑ k, v k * L (unitArg a k) := by
  rw [single_eq_sum, map_sum]
  simp

/-! ### C133 -/

/-- **C133** (which argument).  `argnums` means the argument at this position, or for a negative number the position counted from
the end; every other number is an error. -/
theorem C133_arg (argnums : ℤ) :
    (∀ a : Fin n, argOf n argnums = some a ↔ (a : ℤ) = argnums ∨ argnums < 0 ∧ (a : ℤ) = n + argnums) ∧
    (argOf n argnums = none ↔ argnums < -n ∨ (n : ℤ) ≤ argnums) := by
  unfold argOf
  constructor
  · intro a
    have := a.2
    split_ifs with h1 h2
    · rw [Option.some.injEq, Fin.ext_iff]
      simp only
      omega
    · rw [Option.some.injEq, Fin.ext_iff]
      simp only
      omega
    · simp only [false_iff]
      omega
  · split_ifs with h1 h2
    · simp only [false_iff]
      omega
    · simp only [false_iff]
      omega
    · simp only [true_iff]
      omega

example : argOf 3 (-1) = some 2 := by decide

/-- **C133** (both modes).  At a point where `func` is twice differentiable, and for `argnums` not negative
or a function of one argument, both modes return the Hessian of `func` by that argument times `v`, plus
`regularization` times `v`. -/
theorem C133_value (f : Args p → ℝ) (argnums : ℤ) (a : Fin n) (ha : argOf n argnums = some a) (mode : String)
    (hm : mode = "rev-rev" ∨ mode = "rev-fwd") (reg : ℝ) (x : Args p) (D : Args p →L[ℝ] Args p →L[ℝ] ℝ)
    (hD : Twice f x D) (hn : mode = "rev-rev" ∨ 0 ≤ argnums ∨ n = 1) (v : Fin (p a) → ℝ) :
    hvpF f argnums a mode reg x v = .ok (second D a *ᵥ v + reg • v) := by
  unfold hvpF
  rw [if_neg (not_not.2 hm)]
  split_ifs with hr
  · congr 2
    funext k
    simp only [vjpF, hD.grad, mulVec, dotProduct, second, of_apply, unitArg]
    exact Finset.sum_congr rfl fun j _ => mul_comm _ _
  · have hp : patched argnums a v = Pi.single a v := by
      unfold patched
      split_ifs with h1 h2
      · rfl
      · exfalso
        have h0 : 0 ≤ argnums := by
          rcases hn with h | h | h
          · exact absurd h hr
          · exact h
          · omega
        unfold argOf at ha
        split_ifs at ha with h3 h4
        · simp only [Option.some.injEq] at ha
          subst ha
          simp only at h2
          omega
        · omega
      · rfl
    congr 2
    funext j
    rw [hp]
    simp only [jvpF, hD.grad, mulVec, dotProduct, second, of_apply]
    rw [hD.symm, apply_single]
    refine Finset.sum_congr rfl fun k _ => ?_
    rw [mul_comm]
    rfl

/-- **C133** (negative positions).  A negative `argnums` of a function of several arguments is accepted by
both modes; the default mode counts from the end, the mode `rev-fwd` returns `regularization * v` whatever
`func` is. -/
theorem C133_negative (f : Args p → ℝ) (argnums : ℤ) (a : Fin n) (h : argnums < 0) (hn : 1 < n) (reg : ℝ)
    (x : Args p) (v : Fin (p a) → ℝ) : hvpF f argnums a "rev-fwd" reg x v = .ok (reg • v) := by
  unfold hvpF
  rw [if_neg (by simp), if_neg (by decide)]
  have hp : patched argnums a v = 0 := by
    unfold patched
    rw [if_pos hn, if_neg (by omega)]
  rw [hp]
  congr 1
  funext j
  simp [jvpF]

/-- **C133** (other modes raise). -/
theorem C133_mode (f : Args p → ℝ) (argnums : ℤ) (a : Fin n) (mode : String) (reg : ℝ) (x : Args p)
    (v : Fin (p a) → ℝ) :
    (∃ w, hvpF f argnums a mode reg x v = .ok w) ↔ mode = "rev-rev" ∨ mode = "rev-fwd" := by
  unfold hvpF
  constructor
  · rintro ⟨w, h⟩
    by_contra hm
    rw [if_pos hm] at h
    cases h
  · intro hm
    rw [if_neg (not_not.2 hm)]
    split_ifs <;> exact ⟨_, rfl⟩

/-- **C133** (the explicit Hessian).  `torch.func.hessian` gives the same symmetric matrix. -/
theorem C133_hessian (f : Args p → ℝ) (a : Fin n) (x : Args p) (D : Args p →L[ℝ] Args p →L[ℝ] ℝ)
    (hD : Twice f x D) : hessianF f a x = second D a ∧ (second D a)ᵀ = second D a := by
  constructor
  · ext j k
    simp only [hessianF, of_apply, hD.grad, second]
    exact hD.symm _ _
  · ext j k
    simp only [transpose_apply, second, of_apply]
    exact hD.symm _ _

/-- **C133** (inverse).  Where the regularised Hessian is nonsingular, `ihvp_explicit` and the Hessian-vector
product with the same regularization undo each other; where it is singular `ihvp_explicit` raises. -/
theorem C133_inverse (f : Args p → ℝ) (argnums : ℤ) (a : Fin n) (ha : argOf n argnums = some a) (mode : String)
    (hm : mode = "rev-rev" ∨ mode = "rev-fwd") (reg : ℝ) (x : Args p) (D : Args p →L[ℝ] Args p →L[ℝ] ℝ)
    (hD : Twice f x D) (hn : mode = "rev-rev" ∨ 0 ≤ argnums ∨ n = 1) (v : Fin (p a) → ℝ) :
    ((second D a + reg • (1 : Matrix (Fin (p a)) (Fin (p a)) ℝ)).det ≠ 0 →
      (∃ w, hvpF f argnums a mode reg x v = .ok w ∧ ihvpExplicitF f a reg x w = some v) ∧
      ∃ w, ihvpExplicitF f a reg x v = some w ∧ hvpF f argnums a mode reg x w = .ok v) ∧
    ((second D a + reg • (1 : Matrix (Fin (p a)) (Fin (p a)) ℝ)).det = 0 → ihvpExplicitF f a reg x v = none) := by
  set A := second D a + reg • (1 : Matrix (Fin (p a)) (Fin (p a)) ℝ) with hA
  have hv : ∀ v, hvpF f argnums a mode reg x v = .ok (A *ᵥ v) := by
    intro v
    rw [C133_value f argnums a ha mode hm reg x D hD hn v, hA, add_mulVec, smul_mulVec, one_mulVec]
  have hi : ∀ v, ihvpExplicitF f a reg x v = linSolve A v := by
    intro v
    unfold ihvpExplicitF ihvpExplicit
    rw [(C133_hessian f a x D hD).1]
  refine ⟨fun h => ?_, fun h => ?_⟩
  · have hu : IsUnit A.det := isUnit_iff_ne_zero.2 h
    refine ⟨⟨_, hv v, ?_⟩, ⟨A⁻¹ *ᵥ v, ?_, ?_⟩⟩
    · rw [hi]
      unfold linSolve
      rw [if_neg h, mulVec_mulVec, nonsing_inv_mul _ hu, one_mulVec]
    · rw [hi]
      unfold linSolve
      rw [if_neg h]
    · rw [hv, mulVec_mulVec, mul_nonsing_inv _ hu, one_mulVec]
  · rw [hi]
    unfold linSolve
    rw [if_pos h]

/-- A function of two arguments of one number each, `x₀² x₁`, at `(3, 2)`: it is twice differentiable there. -/
example : ∃ D, Twice (p := fun _ : Fin 2 => 1) (fun x => x 0 0 * x 0 0 * x 1 0) (fun i _ => if i = 0 then 3 else 2) D := by
  have hc : ContDiff ℝ 2 (fun x : Args (fun _ : Fin 2 => 1) => x 0 0 * x 0 0 * x 1 0) := by fun_prop
  refine ⟨fderiv ℝ (fderiv ℝ fun x : Args (fun _ : Fin 2 => 1) => x 0 0 * x 0 0 * x 1 0)
    (fun i _ => if i = 0 then 3 else 2), ?_, ?_⟩
  · exact Filter.Eventually.of_forall fun y => hc.differentiable (by norm_num) y
  · exact ((hc.fderiv_right (m := 1) (by norm_num)).differentiable (by norm_num) _).hasFDerivAt

end Verif.Hessian
