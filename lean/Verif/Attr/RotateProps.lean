import Verif.Attr.CGAttrModel
import Verif.Hessian.RotateProps
import Verif.TracIn.Props
import Verif.TRAK.Model
import Mathlib.Analysis.Calculus.FDeriv.Equiv
import Mathlib.Analysis.Calculus.FDeriv.Add
import Mathlib.Analysis.Calculus.FDeriv.Mul
import Mathlib.Analysis.Normed.Module.FiniteDimension
import Mathlib.LinearAlgebra.Matrix.ToLin
import Mathlib.Analysis.Calculus.ContDiff.Comp
import Mathlib.Analysis.Calculus.ContDiff.Operations

/-!
# Scores under a change of the coordinates of the parameters (C208)

`N` is the matrix from new to old parameters and `M` its inverse: a model with parameters `t` computes what the old one computes with `N t`, and its checkpoints are `M θ`.
A renumbering of the parameters is the case of a permutation matrix.
-/

namespace Verif.Rotate

open Matrix Verif.Attr

variable {X : Type} {p : ℕ}

/-! ## Derivatives in new coordinates -/

/-- The change of coordinates as a continuous linear equivalence. -/
noncomputable def equivOf (M N : Matrix (Fin p) (Fin p) ℝ) (h : N * M = 1) : (Fin p → ℝ) ≃L[ℝ] (Fin p → ℝ) :=
  (LinearEquiv.ofLinearMap (Matrix.toLin' N) (Matrix.toLin' M) (by rw [← Matrix.toLin'_mul, h, Matrix.toLin'_one])
    (by rw [← Matrix.toLin'_mul, mul_eq_one_comm.1 h, Matrix.toLin'_one])).toContinuousLinearEquiv

theorem equivOf_apply (M N : Matrix (Fin p) (Fin p) ℝ) (h : N * M = 1) (v : Fin p → ℝ) : equivOf M N h v = N *ᵥ v := by
  simp [equivOf]

theorem linear_sum {E : Type} [AddCommGroup E] [Module ℝ E] (L : (Fin p → ℝ) →ₗ[ℝ] E) (v : Fin p → ℝ) : L v = ∑ j, v j • L (Pi.single j 1) := by
  conv_lhs => rw [pi_eq_sum_univ' v]
  rw [map_sum]
  refine Finset.sum_congr rfl fun j _ => ?_
  rw [map_smul]

theorem gradAt_comp (M N : Matrix (Fin p) (Fin p) ℝ) (h : N * M = 1) (f : (Fin p → ℝ) → ℝ) (t : Fin p → ℝ) :
    gradAt (fun t => f (N *ᵥ t)) t = Nᵀ *ᵥ gradAt f (N *ᵥ t) := by
  have e : (fun t => f (N *ᵥ t)) = f ∘ (equivOf M N h) := by
    funext t; simp [equivOf_apply]
  funext k
  unfold gradAt
  rw [e, ContinuousLinearEquiv.comp_right_fderiv]
  simp only [ContinuousLinearMap.comp_apply, ContinuousLinearEquiv.coe_coe, equivOf_apply]
  have := linear_sum (p := p) (fderiv ℝ f (N *ᵥ t)).toLinearMap (N *ᵥ Pi.single k 1)
  simp only [ContinuousLinearMap.coe_coe] at this
  rw [this]
  simp only [mulVec, dotProduct, transpose_apply, smul_eq_mul]
  refine Finset.sum_congr rfl fun j _ => ?_
  congr 1
  simp [Pi.single_apply]

theorem hessAt_comp (M N : Matrix (Fin p) (Fin p) ℝ) (h : N * M = 1) (f : (Fin p → ℝ) → ℝ) (t : Fin p → ℝ)
    (hd : DifferentiableAt ℝ (gradAt f) (N *ᵥ t)) : hessAt (fun t => f (N *ᵥ t)) t = Nᵀ * hessAt f (N *ᵥ t) * N := by
  have hi : ∀ i, DifferentiableAt ℝ (fun y => gradAt f y i) (N *ᵥ t) := fun i => (differentiableAt_pi.1 hd) i
  have hc : ∀ i, (fun y => gradAt f (N *ᵥ y) i) = (fun y => gradAt f y i) ∘ equivOf M N h := by
    intro i; funext y; simp [equivOf_apply]
  have hi' : ∀ i, DifferentiableAt ℝ (fun y => gradAt f (N *ᵥ y) i) t := by
    intro i
    rw [hc i]
    refine DifferentiableAt.comp t ?_ (equivOf M N h).differentiableAt
    rw [equivOf_apply]
    exact hi i
  ext j k
  unfold hessAt
  simp only [of_apply]
  have e : (fun y => gradAt (fun t => f (N *ᵥ t)) y j) = fun y => ∑ i, N i j * gradAt f (N *ᵥ y) i := by
    funext y
    rw [gradAt_comp M N h]
    simp only [mulVec, dotProduct, transpose_apply]
  rw [e, fderiv_fun_sum (fun i _ => (hi' i).const_mul _)]
  have hk : ∀ i, (fderiv ℝ (fun y => N i j * gradAt f (N *ᵥ y) i) t) (Pi.single k 1) =
      N i j * ∑ l, N l k * fderiv ℝ (fun y => gradAt f y i) (N *ᵥ t) (Pi.single l 1) := by
    intro i
    rw [fderiv_const_mul (hi' i), _root_.smul_apply, smul_eq_mul, hc i, ContinuousLinearEquiv.comp_right_fderiv]
    congr 1
    simp only [ContinuousLinearMap.comp_apply, ContinuousLinearEquiv.coe_coe, equivOf_apply]
    have := linear_sum (p := p) (fderiv ℝ (fun y => gradAt f y i) (N *ᵥ t)).toLinearMap (N *ᵥ Pi.single k 1)
    simp only [ContinuousLinearMap.coe_coe] at this
    rw [this]
    refine Finset.sum_congr rfl fun l _ => ?_
    rw [smul_eq_mul]
    congr 1
    simp
  rw [_root_.sum_apply]
  simp only [hk, mul_apply, transpose_apply, of_apply, Finset.sum_mul, Finset.mul_sum]
  rw [Finset.sum_comm]
  refine Finset.sum_congr rfl fun l _ => Finset.sum_congr rfl fun i _ => ?_
  ring

/-! ## Attributors that agree checkpoint by checkpoint -/

section generic

variable {C C' : Type} {d d' p' : ℕ}

theorem foldlM_zipIdx_map {β ε : Type} (g : C → C') (F : β → C × ℕ → Except ε β) (F' : β → C' × ℕ → Except ε β) : ∀ (l : List C) (k : ℕ) (b : β),
    (∀ c ∈ l, ∀ i b, F b (c, i) = F' b (g c, i)) → ((l.map g).zipIdx k).foldlM F' b = (l.zipIdx k).foldlM F b := by
  intro l
  induction l with
  | nil => intro k b _; rfl
  | cons c t ih =>
      intro k b h
      simp only [List.map_cons, List.zipIdx_cons, List.foldlM_cons]
      rw [h c (by simp) k b]
      refine congrArg _ (funext fun b' => ?_)
      exact ih (k + 1) b' fun c hc => h c (by simp [hc])

theorem attribute_congr (S : Sub ℝ X C p d) (S' : Sub ℝ X C' p' d') (g : C → C') (ckpts : List C) (st : Option (Loader X)) (tr te : Loader X)
    (h : ∀ c ∈ ckpts, ∀ x y, dot (S'.transTrain (g c) (S'.genTrain (g c) x)) (S'.transTest (g c) (st.getD tr) (S'.genTest (g c) y)) =
      dot (S.transTrain c (S.genTrain c x)) (S.transTest c (st.getD tr) (S.genTest c y))) :
    attribute' S' (ckpts.map g) st none tr te = attribute' S ckpts st none tr te := by
  unfold attribute'
  refine Prod.ext rfl ?_
  show attributeLoop S' (st.getD tr) (ckpts.map g) none tr te = attributeLoop S (st.getD tr) ckpts none tr te
  unfold attributeLoop
  refine foldlM_zipIdx_map g _ _ ckpts 0 _ fun c hc i b => ?_
  have hb : ∀ trb teb, block S (st.getD tr) c none trb teb = block S' (st.getD tr) (g c) none trb teb := by
    intro trb teb
    simp only [block, h c hc]
  simp only [trainLoop, testLoop, hb, badMethod]

theorem self_congr (S : Sub ℝ X C p d) (S' : Sub ℝ X C' p' d') (g : C → C') (ckpts : List C) (st : Option (Loader X)) (tr : Loader X)
    (h : ∀ c ∈ ckpts, ∀ x y, dot (S'.transTrain (g c) (S'.genTrain (g c) x)) (S'.transTest (g c) (st.getD tr) (S'.genTest (g c) y)) =
      dot (S.transTrain c (S.genTrain c x)) (S.transTest c (st.getD tr) (S.genTest c y))) :
    selfAttribute S' (ckpts.map g) st none tr = selfAttribute S ckpts st none tr := by
  unfold selfAttribute
  refine Prod.ext rfl ?_
  show selfLoop S' (st.getD tr) (ckpts.map g) none tr = selfLoop S (st.getD tr) ckpts none tr
  unfold selfLoop
  refine foldlM_zipIdx_map g _ _ ckpts 0 _ fun c hc i b => ?_
  simp only [selfBatch, h c hc]

end generic

/-! ## The explicit influence function -/

theorem solve_comp (M N A : Matrix (Fin p) (Fin p) ℝ) (h : N * M = 1) (v : Fin p → ℝ) :
    linSolve (Nᵀ * A * N) (Nᵀ *ᵥ v) = (linSolve A v).map (M *ᵥ ·) := by
  have hdet : N.det * M.det = 1 := by rw [← det_mul, h, det_one]
  have hN : N.det ≠ 0 := left_ne_zero_of_mul_eq_one hdet
  have hinv : N⁻¹ = M := Matrix.inv_eq_right_inv h
  have hT : Nᵀ⁻¹ * Nᵀ = 1 := Matrix.nonsing_inv_mul _ (by rw [det_transpose]; exact isUnit_iff_ne_zero.2 hN)
  by_cases hA : A.det = 0
  · have : (Nᵀ * A * N).det = 0 := by simp [det_mul, hA]
    simp [linSolve, hA, this]
  · have : (Nᵀ * A * N).det ≠ 0 := by simp [det_mul, hA, hN]
    simp only [linSolve, if_neg hA, if_neg this, Option.map_some]
    congr 1
    rw [Matrix.mul_inv_rev, Matrix.mul_inv_rev, hinv, mulVec_mulVec, mulVec_mulVec, Matrix.mul_assoc M, Matrix.mul_assoc A⁻¹, hT, Matrix.mul_one]

theorem foldlM_option_except {α β : Type} (f : β → β) (F F' : β → α → Except Err β) : ∀ (l : List α) (b : β),
    (∀ b, ∀ a ∈ l, F' (f b) a = (F b a).map f) → l.foldlM F' (f b) = (l.foldlM F b).map f := by
  intro l
  induction l with
  | nil => intro b _; rfl
  | cons a t ih =>
      intro b h
      simp only [List.foldlM_cons]
      rw [h b a (by simp)]
      cases F b a with
      | error e => rfl
      | ok b' => exact ih b' fun b a ha => h b a (by simp [ha])

theorem accumulate_comp (M : Matrix (Fin p) (Fin p) ℝ) (S S' : List X → (Fin p → ℝ) → Option (Fin p → ℝ)) (full : Loader X) (v v' : Fin p → ℝ)
    (h : ∀ b, S' b v' = (S b v).map (M *ᵥ ·)) : accumulate S' full v' = (accumulate S full v).map (M *ᵥ ·) := by
  unfold accumulate
  refine Eq.trans ?_ (foldlM_option_except (M *ᵥ ·) _ ?F' (List.range full.nb) (0 : Fin p → ℝ) ?_)
  · rw [mulVec_zero]
  · intro acc b _
    simp only [h]
    split_ifs
    · rfl
    · cases S (full.batch b) v with
      | none => rfl
      | some u => simp [Except.map, mulVec_add]

theorem dot_comp (M N : Matrix (Fin p) (Fin p) ℝ) (h : N * M = 1) (u v : Fin p → ℝ) : dot (Nᵀ *ᵥ u) (M *ᵥ v) = dot u v := by
  show (Nᵀ *ᵥ u) ⬝ᵥ (M *ᵥ v) = u ⬝ᵥ v
  rw [dotProduct_mulVec, vecMul_mulVec, transpose_transpose, h]
  simp

theorem taskSub_dot (M N : Matrix (Fin p) (Fin p) ℝ) (h : N * M = 1) (loss : (Fin p → ℝ) → List X → ℝ) (target : (Fin p → ℝ) → X → ℝ) (reg : ℝ)
    (hreg : reg = 0 ∨ Nᵀ * N = 1) (full : Loader X) (c : Fin p → ℝ)
    (hd : ∀ b : List X, DifferentiableAt ℝ (gradAt fun t => loss t b) c) (x y : X) :
    let S := taskSub loss target reg
    let S' := taskSub (fun t b => loss (N *ᵥ t) b) (fun t y => target (N *ᵥ t) y) reg
    dot (S'.transTrain (M *ᵥ c) (S'.genTrain (M *ᵥ c) x)) (S'.transTest (M *ᵥ c) full (S'.genTest (M *ᵥ c) y)) =
      dot (S.transTrain c (S.genTrain c x)) (S.transTest c full (S.genTest c y)) := by
  have hc : N *ᵥ (M *ᵥ c) = c := by rw [mulVec_mulVec, h, one_mulVec]
  have hH : ∀ b : List X, hessAt (fun t => loss (N *ᵥ t) b) (M *ᵥ c) + reg • (1 : Matrix (Fin p) (Fin p) ℝ) =
      Nᵀ * (hessAt (fun t => loss t b) c + reg • (1 : Matrix (Fin p) (Fin p) ℝ)) * N := by
    intro b
    rw [hessAt_comp M N h (fun t => loss t b) (M *ᵥ c) (by rw [hc]; exact hd b), hc, Matrix.mul_add, Matrix.add_mul]
    congr 1
    rcases hreg with h0 | h0
    · simp [h0]
    · simp [h0]
  simp only [taskSub, explicitSub, explicitTransTest, ihvpExplicit, hH]
  rw [gradAt_comp M N h (fun t => loss t [x]), gradAt_comp M N h (fun t => target t y), hc,
    accumulate_comp M (fun batch v => linSolve (hessAt (fun t => loss t batch) c + reg • (1 : Matrix (Fin p) (Fin p) ℝ)) v) _ full
      (gradAt (fun t => target t y) c) _ (fun b => solve_comp M N _ h _)]
  cases accumulate (fun batch v => linSolve (hessAt (fun t => loss t batch) c + reg • (1 : Matrix (Fin p) (Fin p) ℝ)) v) full
      (gradAt (fun t => target t y) c) with
  | error e => simp [Except.map, dot]
  | ok u => simp only [Except.map]; exact dot_comp M N h _ _

/-- The scores of the explicit influence function do not depend on the coordinates of the parameters: any invertible linear change without regularisation, any orthogonal one
with it. -/
theorem C208_explicit (M N : Matrix (Fin p) (Fin p) ℝ) (h : N * M = 1) (loss : (Fin p → ℝ) → List X → ℝ) (target : (Fin p → ℝ) → X → ℝ) (reg : ℝ)
    (hreg : reg = 0 ∨ Nᵀ * N = 1) (ckpts : List (Fin p → ℝ)) (hd : ∀ c ∈ ckpts, ∀ b : List X, DifferentiableAt ℝ (gradAt fun t => loss t b) c)
    (st : Option (Loader X)) (tr te : Loader X) :
    attribute' (taskSub (fun t b => loss (N *ᵥ t) b) (fun t y => target (N *ᵥ t) y) reg) (ckpts.map (M *ᵥ ·)) st none tr te =
        attribute' (taskSub loss target reg) ckpts st none tr te ∧
      selfAttribute (taskSub (fun t b => loss (N *ᵥ t) b) (fun t y => target (N *ᵥ t) y) reg) (ckpts.map (M *ᵥ ·)) st none tr =
        selfAttribute (taskSub loss target reg) ckpts st none tr :=
  ⟨attribute_congr _ _ _ ckpts st tr te fun c hc x y => taskSub_dot M N h loss target reg hreg (st.getD tr) c (hd c hc) x y,
    self_congr _ _ _ ckpts st tr fun c hc x y => taskSub_dot M N h loss target reg hreg (st.getD tr) c (hd c hc) x y⟩

/-! ## Conjugate gradients -/

theorem cgSub_dot (M N : Matrix (Fin p) (Fin p) ℝ) (h : N * M = 1) (hN : Nᵀ * N = 1) (loss : (Fin p → ℝ) → List X → ℝ)
    (target : (Fin p → ℝ) → X → ℝ) (m : ℕ) (tol reg : ℝ) (full : Loader X) (c : Fin p → ℝ)
    (hd : ∀ b : List X, DifferentiableAt ℝ (gradAt fun t => loss t b) c) (x y : X) :
    let S := cgTaskSub loss target m tol reg
    let S' := cgTaskSub (fun t b => loss (N *ᵥ t) b) (fun t y => target (N *ᵥ t) y) m tol reg
    dot (S'.transTrain (M *ᵥ c) (S'.genTrain (M *ᵥ c) x)) (S'.transTest (M *ᵥ c) full (S'.genTest (M *ᵥ c) y)) =
      dot (S.transTrain c (S.genTrain c x)) (S.transTest c full (S.genTest c y)) := by
  have hM : M = Nᵀ := by
    have h1 : M * N = 1 := mul_eq_one_comm.1 h
    calc M = (Nᵀ * N) * M := by rw [hN, Matrix.one_mul]
      _ = Nᵀ := by rw [Matrix.mul_assoc, h, Matrix.mul_one]
  have hQ : Nᵀᵀ * Nᵀ = 1 := by rw [transpose_transpose]; exact mul_eq_one_comm.1 hN
  have hc : N *ᵥ (M *ᵥ c) = c := by rw [mulVec_mulVec, h, one_mulVec]
  have hH : ∀ b : List X, hessAt (fun t => loss (N *ᵥ t) b) (M *ᵥ c) + reg • (1 : Matrix (Fin p) (Fin p) ℝ) =
      Nᵀ * (hessAt (fun t => loss t b) c + reg • (1 : Matrix (Fin p) (Fin p) ℝ)) * Nᵀᵀ := by
    intro b
    rw [hessAt_comp M N h (fun t => loss t b) (M *ᵥ c) (by rw [hc]; exact hd b), hc, Matrix.mul_add, Matrix.add_mul]
    congr 1
    simp [hN]
  have hT : cgTransTest (fun θ b => hessAt (fun t => loss (N *ᵥ t) b) θ) m tol reg (M *ᵥ c) full (Nᵀ *ᵥ gradAt (fun t => target t y) c) =
      (cgTransTest (fun θ b => hessAt (fun t => loss t b) θ) m tol reg c full (gradAt (fun t => target t y) c)).map
        fun o => o.map (Nᵀ *ᵥ ·) := by
    unfold cgTransTest
    have := foldlM_option_except (α := ℕ) (fun o : Option (Fin p → ℝ) => o.map (Nᵀ *ᵥ ·))
      (fun acc b => if !full.supported then .error .typeError else
        let u := Hessian.ihvpCG (hessAt (fun t => loss t (full.batch b)) c + reg • (1 : Matrix (Fin p) (Fin p) ℝ)) m tol (gradAt (fun t => target t y) c)
        .ok (acc.bind fun a => u.map fun u => a + u))
      (fun acc b => if !full.supported then .error .typeError else
        let u := Hessian.ihvpCG (hessAt (fun t => loss (N *ᵥ t) (full.batch b)) (M *ᵥ c) + reg • (1 : Matrix (Fin p) (Fin p) ℝ)) m tol
          (Nᵀ *ᵥ gradAt (fun t => target t y) c)
        .ok (acc.bind fun a => u.map fun u => a + u)) (List.range full.nb) (some 0) (by
          intro acc b _
          simp only [hH, C208_cg Nᵀ _ hQ]
          split_ifs
          · rfl
          · cases acc with
            | none => rfl
            | some a =>
                cases Hessian.ihvpCG (hessAt (fun t => loss t (full.batch b)) c + reg • (1 : Matrix (Fin p) (Fin p) ℝ)) m tol
                    (gradAt (fun t => target t y) c) with
                | none => rfl
                | some u => simp [Except.map, mulVec_add])
    simp only [Option.map_some, mulVec_zero] at this
    exact this
  simp only [cgTaskSub]
  rw [gradAt_comp M N h (fun t => loss t [x]), gradAt_comp M N h (fun t => target t y), hc, hT]
  cases cgTransTest (fun θ b => hessAt (fun t => loss t b) θ) m tol reg c full (gradAt (fun t => target t y) c) with
  | error e => simp [Except.map, dot]
  | ok o =>
      cases o with
      | none => simp [Except.map, dot]
      | some u =>
          simp only [Except.map, Option.map_some]
          exact dot_rot Nᵀ hQ _ _

/-- The same for conjugate gradients and orthogonal changes, for every number of iterations. -/
theorem C208_cg_scores (M N : Matrix (Fin p) (Fin p) ℝ) (h : N * M = 1) (hN : Nᵀ * N = 1) (loss : (Fin p → ℝ) → List X → ℝ)
    (target : (Fin p → ℝ) → X → ℝ) (m : ℕ) (tol reg : ℝ) (ckpts : List (Fin p → ℝ))
    (hd : ∀ c ∈ ckpts, ∀ b : List X, DifferentiableAt ℝ (gradAt fun t => loss t b) c) (st : Option (Loader X)) (tr te : Loader X) :
    attribute' (cgTaskSub (fun t b => loss (N *ᵥ t) b) (fun t y => target (N *ᵥ t) y) m tol reg) (ckpts.map (M *ᵥ ·)) st none tr te =
        attribute' (cgTaskSub loss target m tol reg) ckpts st none tr te ∧
      selfAttribute (cgTaskSub (fun t b => loss (N *ᵥ t) b) (fun t y => target (N *ᵥ t) y) m tol reg) (ckpts.map (M *ᵥ ·)) st none tr =
        selfAttribute (cgTaskSub loss target m tol reg) ckpts st none tr :=
  ⟨attribute_congr _ _ _ ckpts st tr te fun c hc x y => cgSub_dot M N h hN loss target m tol reg (st.getD tr) c (hd c hc) x y,
    self_congr _ _ _ ckpts st tr fun c hc x y => cgSub_dot M N h hN loss target m tol reg (st.getD tr) c (hd c hc) x y⟩

/-! ## TracIn -/

theorem tracin_congr {C C' : Type} {d d' : ℕ} (A : TracIn.Attributor X C d) (A' : TracIn.Attributor X C' d') (g : C → C') (hc : A'.ckpts = A.ckpts.map g)
    (hw : A'.weights = A.weights) (tr te : Loader X) (h : ∀ c w trb teb, TracIn.block A' (g c) w trb teb = TracIn.block A c w trb teb)
    (hs : ∀ c w trb, TracIn.selfBlock A' (g c) w trb = TracIn.selfBlock A c w trb) :
    TracIn.attribute' A' tr te = TracIn.attribute' A tr te ∧ TracIn.selfAttribute A' tr = TracIn.selfAttribute A tr := by
  constructor
  · unfold TracIn.attribute'
    rw [hc, hw, List.length_map, List.zip_map_left, List.foldlM_map]
    simp only [Prod.map, id]
    split_ifs
    · rfl
    · congr 1
      funext M cw
      congr 1
      funext trb teb
      exact h _ _ _ _
  · unfold TracIn.selfAttribute
    rw [hc, hw, List.length_map, List.zip_map_left, List.foldlM_map]
    simp only [Prod.map, id]
    split_ifs
    · rfl
    · congr 1
      funext v cw
      congr 1
      funext trb
      exact hs _ _ _

theorem normalize_rot (Q : Matrix (Fin p) (Fin p) ℝ) (hQ : Qᵀ * Q = 1) (v : Fin p → ℝ) : TracIn.normalize (Q *ᵥ v) = Q *ᵥ TracIn.normalize v := by
  have h1 : ∑ k, (Q *ᵥ v) k ^ 2 = ∑ k, v k ^ 2 := by
    have := dot_rot Q hQ v v
    simp only [dotProduct] at this
    simpa only [sq] using this
  have h2 : TracIn.normalize v = (max (Real.sqrt (∑ k, v k ^ 2)) (1e-12))⁻¹ • v := by
    funext k
    simp only [TracIn.normalize, Pi.smul_apply, smul_eq_mul]
    ring
  rw [h2, mulVec_smul]
  funext k
  simp only [TracIn.normalize, h1, Pi.smul_apply, smul_eq_mul]
  ring

/-- TracIn's scores, normalised or not, do not depend on an orthogonal change of the parameters; no derivative has to exist. -/
theorem C208_tracin (M N : Matrix (Fin p) (Fin p) ℝ) (h : N * M = 1) (hN : Nᵀ * N = 1) (loss : (Fin p → ℝ) → List X → ℝ)
    (target : (Fin p → ℝ) → X → ℝ) (ckpts : List (Fin p → ℝ)) (weights : List ℝ) (nz : Bool) (tr te : Loader X) :
    TracIn.attribute' { taskTracIn (fun t b => loss (N *ᵥ t) b) (fun t y => target (N *ᵥ t) y) (ckpts.map (M *ᵥ ·)) weights with normalized := nz } tr te =
        TracIn.attribute' { taskTracIn loss target ckpts weights with normalized := nz } tr te ∧
      TracIn.selfAttribute { taskTracIn (fun t b => loss (N *ᵥ t) b) (fun t y => target (N *ᵥ t) y) (ckpts.map (M *ᵥ ·)) weights with normalized := nz } tr =
        TracIn.selfAttribute { taskTracIn loss target ckpts weights with normalized := nz } tr := by
  have hQ : Nᵀᵀ * Nᵀ = 1 := by rw [transpose_transpose]; exact mul_eq_one_comm.1 hN
  have hc : ∀ c : Fin p → ℝ, N *ᵥ (M *ᵥ c) = c := by intro c; rw [mulVec_mulVec, h, one_mulVec]
  have hl : ∀ (c : Fin p → ℝ) (b : List X), gradAt (fun t => loss (N *ᵥ t) b) (M *ᵥ c) = Nᵀ *ᵥ gradAt (fun t => loss t b) c := by
    intro c b
    rw [gradAt_comp M N h (fun t => loss t b), hc]
  have ht : ∀ (c : Fin p → ℝ) (y : X), gradAt (fun t => target (N *ᵥ t) y) (M *ᵥ c) = Nᵀ *ᵥ gradAt (fun t => target t y) c := by
    intro c y
    rw [gradAt_comp M N h (fun t => target t y), hc]
  have hdot : ∀ u v : Fin p → ℝ, ∑ k, (Nᵀ *ᵥ u) k * (Nᵀ *ᵥ v) k = ∑ k, u k * v k := fun u v => dot_rot Nᵀ hQ u v
  refine tracin_congr { taskTracIn loss target ckpts weights with normalized := nz }
    { taskTracIn (fun t b => loss (N *ᵥ t) b) (fun t y => target (N *ᵥ t) y) (ckpts.map (M *ᵥ ·)) weights with normalized := nz } (M *ᵥ ·) rfl rfl tr te ?_ ?_
  · intro c w trb teb
    simp only [TracIn.block, taskTracIn, hl, ht, normalize_rot Nᵀ hQ, hdot]
  · intro c w trb
    simp only [TracIn.selfBlock, taskTracIn, hl, hdot]

/-- Other changes matter: with parameters measured in another unit, `s` times as large, every TracIn score (without normalisation) is divided by `s ^ 2`. -/
theorem C208_tracin_unit (s : ℝ) (hs : s ≠ 0) (loss : (Fin p → ℝ) → List X → ℝ) (target : (Fin p → ℝ) → X → ℝ) (ckpts : List (Fin p → ℝ))
    (weights : List ℝ) (tr te : Loader X) (hl : ckpts.length = weights.length) (h1 : 0 < tr.bs) (h2 : 0 < te.bs) (s1 : tr.supported = true)
    (s2 : te.supported = true) :
    ∃ T T', TracIn.attribute' (taskTracIn loss target ckpts weights) tr te = .ok T ∧
      TracIn.attribute' (taskTracIn (fun t b => loss (s⁻¹ • t) b) (fun t y => target (s⁻¹ • t) y) (ckpts.map (s • ·)) weights) tr te = .ok T' ∧
      ∀ i < tr.data.length, ∀ j < te.data.length, T'.f i j = T.f i j / s ^ 2 := by
  have h : (s⁻¹ • (1 : Matrix (Fin p) (Fin p) ℝ)) * (s • 1) = 1 := by
    rw [Matrix.smul_mul, Matrix.mul_smul, Matrix.one_mul, smul_smul, inv_mul_cancel₀ hs, one_smul]
  have hN : ∀ t : Fin p → ℝ, (s⁻¹ • (1 : Matrix (Fin p) (Fin p) ℝ)) *ᵥ t = s⁻¹ • t := by intro t; rw [smul_mulVec, one_mulVec]
  have hg : ∀ (f : (Fin p → ℝ) → ℝ) (c : Fin p → ℝ), gradAt (fun t => f (s⁻¹ • t)) (s • c) = s⁻¹ • gradAt f c := by
    intro f c
    have := gradAt_comp (s • 1) (s⁻¹ • (1 : Matrix (Fin p) (Fin p) ℝ)) h f (s • c)
    simp only [hN, transpose_smul, transpose_one] at this
    rw [this, smul_smul, inv_mul_cancel₀ hs, one_smul]
  obtain ⟨T, e, -, -, f⟩ := TracIn.C09_tracin_entry (taskTracIn loss target ckpts weights) tr te hl h1 h2 s1 s2
  obtain ⟨T', e', -, -, f'⟩ := TracIn.C09_tracin_entry
    (taskTracIn (fun t b => loss (s⁻¹ • t) b) (fun t y => target (s⁻¹ • t) y) (ckpts.map (s • ·)) weights) tr te
    (by simpa [taskTracIn] using hl) h1 h2 s1 s2
  refine ⟨T, T', e, e', fun i hi j hj => ?_⟩
  have hdiv : ∀ l : List ℝ, l.sum / s ^ 2 = (l.map (· / s ^ 2)).sum := by
    intro l
    induction l with
    | nil => simp
    | cons x t ih => rw [List.sum_cons, add_div, ih, List.map_cons, List.sum_cons]
  rw [f i hi j hj, f' i hi j hj, hdiv]
  congr 1
  simp only [taskTracIn, List.zip_map_left, List.map_map]
  refine List.map_congr_left fun cw _ => ?_
  simp only [Function.comp, Prod.map, id, TracIn.pairScore, TracIn.ip, hg (fun t => loss t [tr.data[i]]), hg (fun t => target t te.data[j]), Pi.smul_apply, smul_eq_mul,
    Bool.false_eq_true, if_false]
  rw [mul_div_assoc, Finset.sum_div]
  congr 1
  refine Finset.sum_congr rfl fun k _ => ?_
  field_simp

/-! ## Examples -/

/-- The condition on the loss function holds wherever it is twice continuously differentiable. -/
theorem differentiable_gradAt (f : (Fin p → ℝ) → ℝ) (hf : ContDiff ℝ 2 f) : Differentiable ℝ (gradAt f) := by
  refine differentiable_pi.2 fun k => ?_
  have : ContDiff ℝ 1 (fderiv ℝ f) := hf.fderiv_right (by norm_num)
  exact (this.differentiable (by norm_num)).clm_apply (differentiable_const _)

/-- Two parameters exchanged; a loss that is no quadratic form. -/
example : (!![0, 1; 1, 0] : Matrix (Fin 2) (Fin 2) ℝ) * !![0, 1; 1, 0] = 1 ∧
    ((!![0, 1; 1, 0] : Matrix (Fin 2) (Fin 2) ℝ)ᵀ * !![0, 1; 1, 0] = 1) ∧
    ∀ (b : List ℝ) (c : Fin 2 → ℝ), DifferentiableAt ℝ (gradAt fun t : Fin 2 → ℝ => (t 0 ^ 3 * t 1 - b.sum) ^ 2) c := by
  refine ⟨?_, ?_, fun b c => differentiable_gradAt _ ?_ c⟩
  · ext i j; fin_cases i <;> fin_cases j <;> simp
  · ext i j; fin_cases i <;> fin_cases j <;> simp [mul_apply, Fin.sum_univ_two]
  · fun_prop

end Verif.Rotate
