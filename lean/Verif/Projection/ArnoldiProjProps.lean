import Mathlib.Tactic.FieldSimp
import Mathlib.Tactic.NormNum
import Mathlib.Tactic.Linarith
import Verif.Projection.ArnoldiProjModel

/-!
# C80: the Arnoldi projector
-/

namespace Verif.Projection

open Verif.Hessian Matrix

variable {n : Nat}

/-- Inner product of two rows of finite entries; `none` if any entry is non-finite. -/
noncomputable def optDot : List (Option ℝ) → List (Option ℝ) → Option ℝ
  | some a :: l, some b :: m => (optDot l m).map (a * b + ·)
  | [], [] => some 0
  | _, _ => none

/-- **C80** (agreement). If all kept eigenvalues are positive, inner products of projected rows are exactly the inner products with the
Arnoldi inverse-Hessian-vector product computed from the same eigenpairs. -/
theorem C80_inner_products (a : Arn n) (projDim : Nat) (tol : ℝ) (eigs : List (ℝ × (Nat → ℝ)))
    (hpos : ∀ e ∈ lastK projDim eigs, 0 < e.1) (x y : V n) :
    ∃ z, arnoldiIhvp a projDim eigs x = some z ∧
      optDot ((eigenspace a projDim tol eigs).project x) ((eigenspace a projDim tol eigs).project y) = some (z ⬝ᵥ y) := by
  classical
  refine ⟨_, by unfold arnoldiIhvp; rw [if_neg]; rintro ⟨e, he, h0⟩; exact (hpos e he).ne' h0, ?_⟩
  unfold eigenspace AState.project
  simp only [List.map_map]
  generalize lastK projDim eigs = sel at hpos
  induction sel with
  | nil => simp [optDot]
  | cons e l ih =>
    have he := hpos e (by simp)
    have ih := ih (fun e' h' => hpos e' (by simp [h']))
    simp only [List.map_cons, Function.comp, he, if_true, optDot, List.sum_cons, add_dotProduct, smul_dotProduct, smul_eq_mul]
    rw [ih]
    simp only [Option.map_some, Option.some.injEq]
    congr 1
    have hs : Real.sqrt e.1 * Real.sqrt e.1 = e.1 := Real.mul_self_sqrt he.le
    have hs0 : Real.sqrt e.1 ≠ 0 := (Real.sqrt_pos.2 he).ne'
    rw [dotProduct_comm y]
    have he0 := he.ne'
    calc _ = (x ⬝ᵥ _) * (_ ⬝ᵥ y) / (Real.sqrt e.1 * Real.sqrt e.1) := by field_simp
      _ = _ := by rw [hs]; norm_num; ring

/-- **C80** (shape). The number of output columns is the number of kept eigenpairs — `min(proj_dim, m)` for positive `proj_dim` — whatever
the automatic adjustment does to `proj_dim`; and column `k` is finite iff the `k`-th kept eigenvalue is positive. So after the warning
"automatically adjusting `proj_dim`" the output still contains the non-finite columns. -/
theorem C80_columns (a : Arn n) (projDim : Nat) (hp : 0 < projDim) (tol : ℝ) (eigs : List (ℝ × (Nat → ℝ))) (x : V n) :
    ((eigenspace a projDim tol eigs).project x).length = min projDim eigs.length ∧
    ∀ k (hk : k < (lastK projDim eigs).length),
      (∃ v, ((eigenspace a projDim tol eigs).project x)[k]? = some (some v)) ↔ 0 < (lastK projDim eigs)[k].1 := by
  classical
  constructor
  · simp [eigenspace, AState.project, lastK, hp.ne']; omega
  · intro k hk
    unfold eigenspace AState.project
    simp only [List.map_map, List.getElem?_map, List.getElem?_eq_getElem hk, Option.map_some, Function.comp]
    by_cases h : 0 < (lastK projDim eigs)[k].1 <;> simp [h]

/-- **C80** (adjustment). The adjusted attribute counts the kept eigenvalues above `tol²`, and, if at least `proj_dim` eigenpairs
exist, is smaller than the number of output columns iff some kept eigenvalue is at most `tol²`. -/
theorem C80_adjusted (a : Arn n) (projDim : Nat) (hp : 0 < projDim) (tol : ℝ) (eigs : List (ℝ × (Nat → ℝ))) (x : V n)
    (hlen : projDim ≤ eigs.length) :
    (eigenspace a projDim tol eigs).projDim < ((eigenspace a projDim tol eigs).project x).length ↔
      ∃ e ∈ lastK projDim eigs, e.1 ≤ tol ^ 2 := by
  classical
  rw [(C80_columns a projDim hp tol eigs x).1, min_eq_left hlen]
  have hl : (lastK projDim eigs).length = projDim := by simp [lastK, hp.ne']; omega
  set sel := (lastK projDim eigs).map fun e =>
    (e.1, ((List.range a.cols.length).map (fun k => e.2 k • a.proj.getD k 0)).sum) with hsel
  have hsl : sel.length = projDim := by rw [hsel]; simpa using hl
  have hP : (eigenspace a projDim tol eigs).projDim =
      if (sel.filter fun e => tol ^ 2 < e.1).length < projDim then (sel.filter fun e => tol ^ 2 < e.1).length else projDim := rfl
  rw [hP]
  have hex : (∃ e ∈ lastK projDim eigs, e.1 ≤ tol ^ 2) ↔ ∃ e ∈ sel, e.1 ≤ tol ^ 2 := by
    rw [hsel]; simp only [List.mem_map, exists_exists_and_eq_and]
  rw [hex]
  have hlt : (sel.filter fun e => tol ^ 2 < e.1).length < sel.length ↔ ∃ e ∈ sel, e.1 ≤ tol ^ 2 := by
    rw [List.length_filter_lt_length_iff_exists]
    simp
  rw [hsl] at hlt
  rw [← hlt]
  split_ifs with h
  · exact ⟨fun _ => h, fun _ => h⟩
  · exact ⟨fun h' => absurd h' (lt_irrefl _), fun h' => absurd h' h⟩

/-- Eigenvalues 2 and -3 (kept both): the attribute drops to 1, the output keeps two columns, the second non-finite. -/
example : (eigenspace (n := 1) ⟨[![1], ![0]], [[2, 0]], true⟩ 2 0 [(2, fun _ => 1), (-3, fun _ => 1)]).project ![3] =
    [some (3 * (1 / Real.sqrt 2)), none] := by
  simp [eigenspace, AState.project, lastK, dotProduct]

end Verif.Projection
