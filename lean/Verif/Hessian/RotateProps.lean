import Verif.Hessian.CGModel
import Verif.Hessian.LissaModel
import Verif.Hessian.ArnoldiModel
import Verif.DataInf.Model
import Mathlib.Tactic.LinearCombination
import Mathlib.Data.Matrix.Basic

/-!
# Solvers in rotated coordinates (C208)

`Q` with `Qᵀ Q = 1` is a rotation, reflection or renumbering of the coordinates.
-/

namespace Verif.Rotate

open Matrix Verif.Hessian

variable {R : Type} {n : ℕ}

theorem dot_rot [CommRing R] (Q : Matrix (Fin n) (Fin n) R) (hQ : Qᵀ * Q = 1) (v w : Fin n → R) :
    (Q *ᵥ v) ⬝ᵥ (Q *ᵥ w) = v ⬝ᵥ w := by
  rw [dotProduct_mulVec, vecMul_mulVec, hQ]
  simp

theorem rot_mul [CommRing R] (Q A : Matrix (Fin n) (Fin n) R) (hQ : Qᵀ * Q = 1) (v : Fin n → R) :
    (Q * A * Qᵀ) *ᵥ (Q *ᵥ v) = Q *ᵥ (A *ᵥ v) := by
  rw [mulVec_mulVec, Matrix.mul_assoc (Q * A), hQ, Matrix.mul_one, ← mulVec_mulVec]

/-! ## Conjugate gradients -/

/-- The state of the loop in new coordinates. -/
def rotCG [Field R] (Q : Matrix (Fin n) (Fin n) R) (s : CG R n) : CG R n := ⟨Q *ᵥ s.x, Q *ᵥ s.g, Q *ᵥ s.d⟩

theorem cgStep_rot [Field R] [DecidableEq R] (Q A : Matrix (Fin n) (Fin n) R) (hQ : Qᵀ * Q = 1) (s : CG R n) :
    cgStep (Q * A * Qᵀ) (rotCG Q s) = (cgStep A s).map (rotCG Q) := by
  have e : ∀ a : R, Q *ᵥ s.g - a • (Q *ᵥ (A *ᵥ s.d)) = Q *ᵥ (s.g - a • (A *ᵥ s.d)) := by
    intro a; rw [mulVec_sub, mulVec_smul]
  simp only [cgStep, rotCG, rot_mul Q A hQ, dot_rot Q hQ, e]
  split_ifs
  · rfl
  · rfl
  · simp only [Option.map_some, rotCG, mulVec_add, mulVec_smul]

theorem cgRun_rot [Field R] [DecidableEq R] (Q A : Matrix (Fin n) (Fin n) R) (hQ : Qᵀ * Q = 1) (v : Fin n → R) (k : ℕ) :
    cgRun (Q * A * Qᵀ) (Q *ᵥ v) k = (cgRun A v k).map (rotCG Q) := by
  induction k with
  | zero =>
      simp only [cgRun, Option.map_some, cgInit, rotCG, rot_mul Q A hQ, mulVec_sub]
  | succ k ih =>
      simp only [cgRun, ih]
      cases cgRun A v k with
      | none => rfl
      | some s => simp only [Option.map_some, Option.bind_some, cgStep_rot Q A hQ]

/-- Conjugate gradients commute with rotations, for every number of iterations, also where they break down. -/
theorem C208_cg [Field R] [DecidableEq R] (Q A : Matrix (Fin n) (Fin n) R) (hQ : Qᵀ * Q = 1) (m : ℕ) (tol : R) (v : Fin n → R) :
    ihvpCG (Q * A * Qᵀ) m tol (Q *ᵥ v) = (ihvpCG A m tol v).map (Q *ᵥ ·) := by
  simp only [ihvpCG, cgRun_rot Q A hQ]
  cases cgRun A v m <;> rfl

/-! ## LiSSA -/

theorem lissaRec_rot [Field R] (Q : Matrix (Fin n) (Fin n) R) (hQ : Qᵀ * Q = 1) (hv : List ℕ → Matrix (Fin n) (Fin n) R)
    (perm : ℕ → List ℕ) (bs : ℕ) (d s : R) (v : Fin n → R) (t : ℕ) :
    lissaRec (fun b => Q * hv b * Qᵀ) perm bs d s (Q *ᵥ v) t = Q *ᵥ lissaRec hv perm bs d s v t := by
  induction t with
  | zero => rfl
  | succ t ih => simp only [lissaRec, ih, rot_mul Q _ hQ, mulVec_sub, mulVec_add, mulVec_smul]

theorem mulVec_list_sum [Field R] (Q : Matrix (Fin n) (Fin n) R) (l : List (Fin n → R)) : Q *ᵥ l.sum = (l.map (Q *ᵥ ·)).sum := by
  induction l with
  | nil => simp
  | cons x t ih => simp [mulVec_add, ih]

/-- LiSSA commutes with rotations, draw by draw. -/
theorem C208_lissa [Field R] [DecidableEq R] (Q : Matrix (Fin n) (Fin n) R) (hQ : Qᵀ * Q = 1)
    (hv : List ℕ → Matrix (Fin n) (Fin n) R) (perm : ℕ → ℕ → List ℕ) (bs rep T : ℕ) (d s : R) (v : Fin n → R) :
    ihvpLissa (fun b => Q * hv b * Qᵀ) perm bs rep T d s (Q *ᵥ v) =
      (ihvpLissa hv perm bs rep T d s v).map fun o => o.map (Q *ᵥ ·) := by
  simp only [ihvpLissa, lissaRec_rot Q hQ]
  split_ifs
  · rfl
  · rfl
  · simp only [Except.map, Option.map_some, mulVec_smul, mulVec_list_sum, List.map_map, Function.comp_def]

/-! ## Arnoldi -/

/-- The result of the iteration in new coordinates: the vectors are rotated, the coefficients are the same. -/
noncomputable def rotArn (Q : Matrix (Fin n) (Fin n) ℝ) (a : Arn n) : Arn n := ⟨a.proj.map (Q *ᵥ ·), a.cols, a.broke⟩

theorem nrm_rot (Q : Matrix (Fin n) (Fin n) ℝ) (hQ : Qᵀ * Q = 1) (v : V n) : nrm (Q *ᵥ v) = nrm v := by
  unfold nrm
  rw [dot_rot Q hQ]

theorem gsLoop_rot (Q : Matrix (Fin n) (Fin n) ℝ) (hQ : Qᵀ * Q = 1) (c : ℝ) (proj : List (V n)) : ∀ (acc : List ℝ) (h : V n),
    (proj.map (Q *ᵥ ·)).foldl (fun (s : List ℝ × V n) p => (s.1 ++ [(s.2 ⬝ᵥ p) / c ^ 2], s.2 - ((s.2 ⬝ᵥ p) / c ^ 2) • p))
        (acc, Q *ᵥ h) =
      ((proj.foldl (fun (s : List ℝ × V n) p => (s.1 ++ [(s.2 ⬝ᵥ p) / c ^ 2], s.2 - ((s.2 ⬝ᵥ p) / c ^ 2) • p)) (acc, h)).1,
        Q *ᵥ (proj.foldl (fun (s : List ℝ × V n) p =>
          (s.1 ++ [(s.2 ⬝ᵥ p) / c ^ 2], s.2 - ((s.2 ⬝ᵥ p) / c ^ 2) • p)) (acc, h)).2) := by
  induction proj with
  | nil => intro acc h; rfl
  | cons p t ih =>
      intro acc h
      simp only [List.map_cons, List.foldl_cons, dot_rot Q hQ]
      rw [← mulVec_smul, ← mulVec_sub, ih]

theorem arnLoop_rot (Q A : Matrix (Fin n) (Fin n) ℝ) (hQ : Qᵀ * Q = 1) (c tol : ℝ) (k : ℕ) : ∀ (proj : List (V n))
    (cols : List (List ℝ)) (last : V n),
    arnLoop (Q * A * Qᵀ) c tol k (proj.map (Q *ᵥ ·)) cols (Q *ᵥ last) = (arnLoop A c tol k proj cols last).map (rotArn Q) := by
  induction k with
  | zero => intro proj cols last; rfl
  | succ k ih =>
      intro proj cols last
      have hg := gsLoop_rot Q hQ c proj [] (A *ᵥ last)
      have hg' : gsLoop c (proj.map (Q *ᵥ ·)) ((Q * A * Qᵀ) *ᵥ (Q *ᵥ last)) =
          ((gsLoop c proj (A *ᵥ last)).1, Q *ᵥ (gsLoop c proj (A *ᵥ last)).2) := by
        rw [rot_mul Q A hQ]
        exact hg
      simp only [arnLoop, hg', nrm_rot Q hQ]
      split_ifs
      · simp [rotArn]
      · rfl
      · rw [← ih]
        simp only [List.map_append, List.map_cons, List.map_nil, mulVec_smul]

/-- The Arnoldi iteration commutes with rotations if its start vector is rotated too. -/
theorem C208_arnoldi (Q A : Matrix (Fin n) (Fin n) ℝ) (hQ : Qᵀ * Q = 1) (start : V n) (m : ℕ) (c tol : ℝ) :
    arnoldi (Q * A * Qᵀ) (Q *ᵥ start) m c tol = (arnoldi A start m c tol).map fun o => o.map (rotArn Q) := by
  simp only [arnoldi, nrm_rot Q hQ]
  split_ifs
  · rfl
  · rfl
  · simp only [Except.map]
    rw [← arnLoop_rot Q A hQ]
    simp only [List.map_cons, List.map_nil, mulVec_smul]

theorem arnoldiIhvp_term (Q : Matrix (Fin n) (Fin n) ℝ) (a : Arn n) (e : ℕ → ℝ) :
    ((List.range a.cols.length).map (fun k : ℕ => e k • (a.proj.map (Q *ᵥ ·)).getD k 0)).sum =
      Q *ᵥ ((List.range a.cols.length).map (fun k : ℕ => e k • a.proj.getD k 0)).sum := by
  rw [mulVec_list_sum, List.map_map]
  congr 1
  refine List.map_congr_left fun k _ => ?_
  simp only [Function.comp, mulVec_smul]
  congr 1
  simp only [List.getD_eq_getElem?_getD, List.getElem?_map]
  cases a.proj[k]? <;> simp

/-- With the same eigenpairs of the small matrix, which does not change, the Arnoldi products commute with rotations. -/
theorem C208_arnoldi_product (Q : Matrix (Fin n) (Fin n) ℝ) (hQ : Qᵀ * Q = 1) (a : Arn n) (topK : ℕ) (eigs : List (ℝ × (ℕ → ℝ)))
    (v : V n) : (∀ i j, (rotArn Q a).sym i j = a.sym i j) ∧
      arnoldiIhvp (rotArn Q a) topK eigs (Q *ᵥ v) = (arnoldiIhvp a topK eigs v).map (Q *ᵥ ·) := by
  refine ⟨fun i j => rfl, ?_⟩
  have h : ∀ e : ℝ × (ℕ → ℝ), ((List.range (rotArn Q a).cols.length).map (fun k : ℕ => e.2 k • (rotArn Q a).proj.getD k 0)).sum =
      Q *ᵥ ((List.range a.cols.length).map (fun k : ℕ => e.2 k • a.proj.getD k 0)).sum := fun e => arnoldiIhvp_term Q a e.2
  simp only [arnoldiIhvp, h, dot_rot Q hQ]
  split_ifs
  · rfl
  · simp only [Option.map_some, mulVec_list_sum, List.map_map, Function.comp_def, mulVec_smul]

/-! ## DataInf -/

theorem single_rot (Q : Matrix (Fin n) (Fin n) ℝ) (hQ : Qᵀ * Q = 1) (v g : Fin n → ℝ) (r : ℝ) :
    DataInf.single (Q *ᵥ v) (Q *ᵥ g) r = (DataInf.single v g r).map (Q *ᵥ ·) := by
  have h1 : ∑ k, (Q *ᵥ g) k ^ 2 = ∑ k, g k ^ 2 := by
    have := dot_rot Q hQ g g
    simp only [dotProduct] at this
    simpa only [sq] using this
  have h2 : ∑ k, (Q *ᵥ v) k * (Q *ᵥ g) k = ∑ k, v k * g k := dot_rot Q hQ v g
  simp only [DataInf.single, h1, h2]
  split_ifs
  · rfl
  · simp only [Option.map_some]
    congr 1
    have : (fun k => (v k - (∑ k, v k * g k) / (r + ∑ k, g k ^ 2) * g k) / r) =
        r⁻¹ • (v - ((∑ k, v k * g k) / (r + ∑ k, g k ^ 2)) • g) := by
      funext k
      simp only [Pi.smul_apply, Pi.sub_apply, smul_eq_mul]
      ring
    rw [this, mulVec_smul, mulVec_sub, mulVec_smul]
    funext k
    simp only [Pi.smul_apply, Pi.sub_apply, smul_eq_mul]
    ring

theorem mapM_single_rot (Q : Matrix (Fin n) (Fin n) ℝ) (hQ : Qᵀ * Q = 1) (v : Fin n → ℝ) (r : ℝ) (l : List (Fin n → ℝ)) :
    (l.map (Q *ᵥ ·)).mapM (fun g => DataInf.single (Q *ᵥ v) g r) =
      (l.mapM (fun g => DataInf.single v g r)).map fun o => o.map (Q *ᵥ ·) := by
  induction l with
  | nil => rfl
  | cons g t ih =>
      simp only [List.map_cons, List.mapM_cons, single_rot Q hQ, ih]
      cases DataInf.single v g r with
      | none => rfl
      | some x =>
          cases t.mapM (fun g => DataInf.single v g r) with
          | none => rfl
          | some y => rfl

/-- DataInf in one layer commutes with rotations of the parameters of this layer. -/
theorem C208_datainf (Q : Matrix (Fin n) (Fin n) ℝ) (hQ : Qᵀ * Q = 1) (tenth : ℝ) (bs : ℕ) (grads : List (Fin n → ℝ))
    (reg : Option ℝ) (v : Fin n → ℝ) :
    DataInf.transformLayer tenth bs (grads.map (Q *ᵥ ·)) reg (Q *ᵥ v) = (DataInf.transformLayer tenth bs grads reg v).map (Q *ᵥ ·) := by
  have hsplit : DataInf.split bs (grads.map (Q *ᵥ ·)) = (DataInf.split bs grads).map fun l => l.map (Q *ᵥ ·) := by
    simp only [DataInf.split, batches, numBatches, List.length_map, List.map_map]
    refine List.map_congr_left fun k _ => ?_
    simp only [Function.comp, batchAt, List.map_take, List.map_drop]
  have hfold : ∀ (ch : List (List (Fin n → ℝ))) (acc : Fin n → ℝ),
      (ch.map fun l => l.map (Q *ᵥ ·)).foldlM (fun (acc : Fin n → ℝ) (chunk : List (Fin n → ℝ)) => do
        let parts ← chunk.mapM (fun g => DataInf.single (Q *ᵥ v) g (reg.getD tenth))
        pure (acc + parts.sum)) (Q *ᵥ acc) =
      (ch.foldlM (fun (acc : Fin n → ℝ) (chunk : List (Fin n → ℝ)) => do
        let parts ← chunk.mapM (fun g => DataInf.single v g (reg.getD tenth))
        pure (acc + parts.sum)) acc).map (Q *ᵥ ·) := by
    intro ch
    induction ch with
    | nil => intro acc; rfl
    | cons l t ih =>
        intro acc
        simp only [List.map_cons, List.foldlM_cons, mapM_single_rot Q hQ]
        cases l.mapM (fun g => DataInf.single v g (reg.getD tenth)) with
        | none => rfl
        | some y =>
            have := ih (acc + y.sum)
            rw [mulVec_add, mulVec_list_sum] at this
            exact this
  have h0 := hfold (DataInf.split bs grads) 0
  rw [mulVec_zero] at h0
  simp only [DataInf.transformLayer, hsplit, List.length_map]
  rw [h0]
  generalize List.foldlM (m := Option) _ (0 : Fin n → ℝ) (DataInf.split bs grads) = o
  cases o with
  | none => rfl
  | some x =>
      refine congrArg some ?_
      have : (fun k => x k / (grads.length : ℝ)) = (grads.length : ℝ)⁻¹ • x := by
        funext k
        simp only [Pi.smul_apply, smul_eq_mul]
        ring
      rw [this]
      beta_reduce
      rw [mulVec_smul]
      funext k
      simp only [Pi.smul_apply, smul_eq_mul]
      ring

/-! ## Examples -/

/-- A rotation that is no renumbering. -/
example : (!![3 / 5, -4 / 5; 4 / 5, 3 / 5] : Matrix (Fin 2) (Fin 2) ℚ)ᵀ * !![3 / 5, -4 / 5; 4 / 5, 3 / 5] = 1 := by
  decide +kernel

end Verif.Rotate
