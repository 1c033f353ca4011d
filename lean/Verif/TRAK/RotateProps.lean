import Verif.TRAK.Model
import Verif.EKFAC.Model
import Verif.Hessian.RotateProps
import Verif.Attr.RotateProps

/-!
# TRAK and EK-FAC under a change of coordinates (C208)
-/

namespace Verif.Rotate

open Matrix

/-! ## TRAK: coordinates of the projected features -/

section trak

open Verif.TRAK

variable {X C : Type} {d : ℕ}

/-- The attributor whose features are multiplied by `M`. -/
def rotTRAK (M : Matrix (Fin d) (Fin d) ℝ) (A : Attributor ℝ X C d) : Attributor ℝ X C d :=
  ⟨fun c x => M *ᵥ A.phiLoss c x, fun c x => M *ᵥ A.phiTarget c x, A.prob, A.ckpts, A.reg⟩

/-- The state of this attributor: the solved columns are multiplied by the transposed inverse `Nᵀ`. -/
def rotSt (N : Matrix (Fin d) (Fin d) ℝ) (s : State ℝ X d) : State ℝ X d := ⟨s.full, s.inv.map fun l => l.map (Nᵀ *ᵥ ·), s.Q⟩

theorem catRows_map {α β : Type} (f : X → α) (g : α → β) (l : Loader X) : catRows l (fun x => g (f x)) = (catRows l f).map fun r => r.map g := by
  unfold catRows
  have h : ∀ (bs : List ℕ) (acc : List (List α)),
      bs.foldlM (fun acc b => if !l.supported then (.error .typeError : Except Err (List (List β))) else .ok (acc ++ [(l.batch b).map fun x => g (f x)]))
        (acc.map fun r => r.map g) =
      (bs.foldlM (fun acc b => if !l.supported then (.error .typeError : Except Err (List (List α))) else .ok (acc ++ [(l.batch b).map f])) acc).map
        fun r => r.map fun r => r.map g := by
    intro bs
    induction bs with
    | nil => intro acc; rfl
    | cons b t ih =>
        intro acc
        simp only [List.foldlM_cons]
        split_ifs with hs
        · rfl
        · have := ih (acc ++ [(l.batch b).map f])
          simp only [List.map_append, List.map_cons, List.map_nil, List.map_map, Function.comp_def, if_neg hs] at this
          exact this
  have h0 := h (List.range l.nb) []
  simp only [List.map_nil] at h0
  rw [h0]
  cases (List.range l.nb).foldlM (fun acc b => if !l.supported then (.error .typeError : Except Err (List (List α))) else .ok (acc ++ [(l.batch b).map f])) [] with
  | error e => rfl
  | ok r =>
      simp only [Except.map, bind, Except.bind, List.length_map]
      split_ifs
      · rfl
      · simp [pure, Except.pure, List.map_flatten]

theorem kernel_eq (reg : ℝ) (Φ : List (Fin d → ℝ)) : kernel reg Φ = (Φ.map fun φ => vecMulVec φ φ).sum + reg • (1 : Matrix (Fin d) (Fin d) ℝ) := by
  ext a b
  simp only [kernel, Matrix.add_apply, Matrix.smul_apply, one_apply, smul_eq_mul, mul_ite, mul_one, mul_zero]
  congr 1
  induction Φ with
  | nil => rfl
  | cons φ t ih => simp only [List.map_cons, List.sum_cons, Matrix.add_apply, vecMulVec_apply, ih]

theorem kernel_rot (M : Matrix (Fin d) (Fin d) ℝ) (reg : ℝ) (hreg : reg = 0 ∨ M * Mᵀ = 1) (Φ : List (Fin d → ℝ)) :
    kernel reg (Φ.map (M *ᵥ ·)) = M * kernel reg Φ * Mᵀ := by
  have hs : ((Φ.map (M *ᵥ ·)).map fun φ => vecMulVec φ φ).sum = M * (Φ.map fun φ => vecMulVec φ φ).sum * Mᵀ := by
    induction Φ with
    | nil => simp
    | cons φ t ih =>
        simp only [List.map_cons, List.sum_cons, ih, Matrix.mul_add, Matrix.add_mul, mul_vecMulVec, vecMulVec_mul, vecMul_transpose]
  rw [kernel_eq, kernel_eq, hs, Matrix.mul_add, Matrix.add_mul]
  congr 1
  rcases hreg with h | h
  · simp [h]
  · simp [h]

theorem solveT_rot (M N : Matrix (Fin d) (Fin d) ℝ) (h : N * M = 1) (reg : ℝ) (hreg : reg = 0 ∨ M * Mᵀ = 1) (Φ : List (Fin d → ℝ)) :
    solveT reg (Φ.map (M *ᵥ ·)) = (solveT reg Φ).map fun l => l.map (Nᵀ *ᵥ ·) := by
  have hT : Mᵀ * Nᵀ = 1 := by rw [← transpose_mul, h, transpose_one]
  have hdet : N.det * M.det = 1 := by rw [← det_mul, h, det_one]
  have hM : M.det ≠ 0 := right_ne_zero_of_mul_eq_one hdet
  have hMi : M⁻¹ = N := Matrix.inv_eq_left_inv h
  have hTi : Mᵀ⁻¹ = Nᵀ := Matrix.inv_eq_right_inv hT
  unfold solveT
  rw [kernel_rot M reg hreg]
  by_cases hK : (kernel reg Φ).det = 0
  · have : (M * kernel reg Φ * Mᵀ).det = 0 := by simp [det_mul, hK]
    rw [if_pos hK, if_pos this]
    rfl
  · have : (M * kernel reg Φ * Mᵀ).det ≠ 0 := by simp [det_mul, hK, hM]
    rw [if_neg hK, if_neg this]
    simp only [Except.map, List.map_map]
    congr 1
    refine List.map_congr_left fun φ _ => ?_
    simp only [Function.comp]
    rw [Matrix.mul_inv_rev, Matrix.mul_inv_rev, hMi, hTi, mulVec_mulVec, mulVec_mulVec, Matrix.mul_assoc, Matrix.mul_assoc (kernel reg Φ)⁻¹, h, Matrix.mul_one]

theorem dot_inv (M N : Matrix (Fin d) (Fin d) ℝ) (h : N * M = 1) (u v : Fin d → ℝ) : (M *ᵥ u) ⬝ᵥ (Nᵀ *ᵥ v) = u ⬝ᵥ v := by
  rw [dotProduct_mulVec, vecMul_mulVec, ← transpose_mul, h]
  simp

theorem prod_rot (M N : Matrix (Fin d) (Fin d) ℝ) (h : N * M = 1) (Ψ inv : List (Fin d → ℝ)) :
    prod (Ψ.map (M *ᵥ ·)) (inv.map (Nᵀ *ᵥ ·)) = prod Ψ inv := by
  unfold prod
  simp only [List.length_map, List.getElem?_map, Mat.mk.injEq, true_and]
  funext j i
  cases Ψ[j]? <;> cases inv[i]? <;> simp [dot_inv M N h]

theorem trainPart_rot (M : Matrix (Fin d) (Fin d) ℝ) (A : Attributor ℝ X C d) (c : C) (tr : Loader X) :
    trainPart (rotTRAK M A) c tr = (trainPart A c tr).map fun r => (r.1.map (M *ᵥ ·), r.2) := by
  unfold trainPart
  simp only [rotTRAK, catRows_map (A.phiLoss c) (M *ᵥ ·)]
  cases catRows tr (A.phiLoss c) with
  | error e => rfl
  | ok Φ =>
      simp only [Except.map, bind, Except.bind]
      cases catRows tr (fun x => 1 - A.prob c x) <;> rfl

theorem attrStep_rot (M N : Matrix (Fin d) (Fin d) ℝ) (h : N * M = 1) (A : Attributor ℝ X C d) (hreg : A.reg = 0 ∨ M * Mᵀ = 1) (st : State ℝ X d)
    (tr : Option (Loader X)) (te : Loader X) : attrStep (rotTRAK M A) (rotSt N st) tr te = attrStep A st tr te := by
  funext s ci
  unfold attrStep
  have hte : catRows te ((rotTRAK M A).phiTarget ci.1) = (catRows te (A.phiTarget ci.1)).map fun r => r.map (M *ᵥ ·) :=
    catRows_map (A.phiTarget ci.1) (M *ᵥ ·) te
  cases tr with
  | none =>
      simp only [hte]
      cases catRows te (A.phiTarget ci.1) with
      | error e => rfl
      | ok Ψ =>
          simp only [Except.map, bind, Except.bind, rotSt, List.getElem?_map]
          cases st.inv[ci.2]? with
          | none => rfl
          | some inv => simp only [Option.map_some, prod_rot M N h]
  | some tr =>
      simp only [trainPart_rot, hte]
      cases trainPart A ci.1 tr with
      | error e => rfl
      | ok Φ =>
          simp only [Except.map, bind, Except.bind]
          cases catRows te (A.phiTarget ci.1) with
          | error e => rfl
          | ok Ψ =>
              have : solveT (rotTRAK M A).reg (Φ.1.map (M *ᵥ ·)) = (solveT A.reg Φ.1).map fun l => l.map (Nᵀ *ᵥ ·) := solveT_rot M N h A.reg hreg Φ.1
              simp only [this]
              cases solveT A.reg Φ.1 with
              | error e => rfl
              | ok inv => simp only [Except.map, prod_rot M N h]

theorem selfStep_rot (M N : Matrix (Fin d) (Fin d) ℝ) (h : N * M = 1) (A : Attributor ℝ X C d) (hreg : A.reg = 0 ∨ M * Mᵀ = 1) (tr : Loader X) :
    selfStep (rotTRAK M A) tr = selfStep A tr := by
  funext s ci
  unfold selfStep
  simp only [trainPart_rot]
  cases trainPart A ci.1 tr with
  | error e => rfl
  | ok Φ =>
      simp only [Except.map, bind, Except.bind]
      have : solveT (rotTRAK M A).reg (Φ.1.map (M *ᵥ ·)) = (solveT A.reg Φ.1).map fun l => l.map (Nᵀ *ᵥ ·) := solveT_rot M N h A.reg hreg Φ.1
      simp only [this]
      cases solveT A.reg Φ.1 with
      | error e => rfl
      | ok inv =>
          simp only [Except.map, List.length_map, List.getElem?_map]
          refine congrArg (fun D : Mat ℝ => (pure (some (runMat s.1 ci.2 D), some (runQ s.2 ci.2 Φ.2)) : Except Err (Option (Mat ℝ) × Option (List ℝ)))) ?_
          simp only [Mat.mk.injEq, true_and]
          funext _ i
          cases Φ.1[i]? <;> cases inv[i]? <;> simp [dot_inv M N h]

/-- The pair accumulated by `cache`, with rotated columns. -/
def rotAcc (N : Matrix (Fin d) (Fin d) ℝ) (s : List (List (Fin d → ℝ)) × Option (List ℝ)) : List (List (Fin d → ℝ)) × Option (List ℝ) :=
  (s.1.map fun l => l.map (Nᵀ *ᵥ ·), s.2)

theorem foldlM_rotAcc {α β : Type} (f : β → β) (F F' : β → α → Except Err β) (hF : ∀ b a, F' (f b) a = (F b a).map f) : ∀ (l : List α) (b : β),
    l.foldlM F' (f b) = (l.foldlM F b).map f :=
  fun l b => foldlM_option_except f F F' l b fun b a _ => hF b a

theorem cache_rot (M N : Matrix (Fin d) (Fin d) ℝ) (h : N * M = 1) (A : Attributor ℝ X C d) (hreg : A.reg = 0 ∨ M * Mᵀ = 1) (st : State ℝ X d)
    (full : Loader X) : cache (rotTRAK M A) (rotSt N st) full = (cache A st full).map (rotSt N) := by
  unfold cache
  have h0 := foldlM_rotAcc (α := C × ℕ) (rotAcc N)
    (fun s ci => do
      let (Φ, q) ← trainPart A ci.1 full
      let inv ← solveT A.reg Φ
      pure (s.1 ++ [inv], some (runQ s.2 ci.2 q)))
    (fun s ci => do
      let (Φ, q) ← trainPart (rotTRAK M A) ci.1 full
      let inv ← solveT (rotTRAK M A).reg Φ
      pure (s.1 ++ [inv], some (runQ s.2 ci.2 q))) (by
        intro s ci
        simp only [trainPart_rot]
        cases trainPart A ci.1 full with
        | error e => rfl
        | ok Φ =>
            have : solveT (rotTRAK M A).reg (Φ.1.map (M *ᵥ ·)) = (solveT A.reg Φ.1).map fun l => l.map (Nᵀ *ᵥ ·) := solveT_rot M N h A.reg hreg Φ.1
            simp only [Except.map, bind, Except.bind, this]
            cases solveT A.reg Φ.1 with
            | error e => rfl
            | ok inv => simp [pure, Except.pure, rotAcc]) A.ckpts.zipIdx ([], none)
  have e0 : rotAcc N (([], none) : List (List (Fin d → ℝ)) × Option (List ℝ)) = ([], none) := rfl
  rw [e0] at h0
  show (do let s ← A.ckpts.zipIdx.foldlM _ ([], none); pure _ : Except Err (State ℝ X d)) = _
  rw [h0]
  generalize List.foldlM (m := Except Err) _ (([], none) : List (List (Fin d → ℝ)) × Option (List ℝ)) A.ckpts.zipIdx = o
  cases o <;> rfl

/-- TRAK's scores, direct, cached and self scores, depend on the features only up to an orthogonal change, and without regularisation only up to an invertible one. -/
theorem C208_trak (M N : Matrix (Fin d) (Fin d) ℝ) (h : N * M = 1) (A : Attributor ℝ X C d) (hreg : A.reg = 0 ∨ M * Mᵀ = 1) (st : State ℝ X d)
    (full te : Loader X) (tr : Option (Loader X)) :
    cache (rotTRAK M A) (rotSt N st) full = (cache A st full).map (rotSt N) ∧
      attribute' (rotTRAK M A) (rotSt N st) te tr = attribute' A st te tr ∧
      selfAttribute (rotTRAK M A) (rotSt N st) tr = selfAttribute A st tr := by
  refine ⟨cache_rot M N h A hreg st full, ?_, ?_⟩
  · unfold attribute'
    rw [attrStep_rot M N h A hreg]
    rfl
  · unfold selfAttribute
    cases tr with
    | none => rfl
    | some tr =>
        simp only [selfStep_rot M N h A hreg]
        rfl

end trak

/-! ## EK-FAC: numbering of the neurons -/

section ekfac

open Verif.EKFAC

variable {R : Type} {p q : ℕ}

/-- With the eigenvectors in the rows, as the formula needs them, the preconditioned gradient would be rotated together with the outputs of the layer. -/
theorem C208_ekfac_rows [Field R] [DecidableEq R] (P : Matrix (Fin q) (Fin q) R) (hP : Pᵀ * P = 1) (qa : Matrix (Fin p) (Fin p) R)
    (qs : Matrix (Fin q) (Fin q) R) (bs : List (List ((Fin p → R) × (Fin q → R)))) (maxIter : Option ℕ) (lam v : Matrix (Fin q) (Fin p) R) (δ : R) :
    estimateLambda qa (qs * Pᵀ) (bs.map fun b => b.map fun x => (x.1, P *ᵥ x.2)) maxIter = estimateLambda qa qs bs maxIter ∧
      ifvp qa (qs * Pᵀ) lam δ (P * v) = (ifvp qa qs lam δ v).map (P * ·) := by
  constructor
  · have he : ∀ (a : Fin p → R) (ds : Fin q → R), lambdaEntry qa (qs * Pᵀ) a (P *ᵥ ds) = lambdaEntry qa qs a ds := by
      intro a ds
      unfold lambdaEntry
      rw [← mul_vecMulVec, Matrix.mul_assoc qs, ← Matrix.mul_assoc Pᵀ, hP, Matrix.one_mul]
    have hu : ∀ (cur : Option (Matrix (Fin q) (Fin p) R)) (b : List ((Fin p → R) × (Fin q → R))) (t : ℕ),
        updateLambda qa (qs * Pᵀ) cur (b.map fun x => (x.1, P *ᵥ x.2)) t = updateLambda qa qs cur b t := by
      intro cur b t
      unfold updateLambda
      simp only [List.map_map, Function.comp_def, he, List.length_map]
    have hv : visited maxIter (bs.map fun b => b.map fun x => (x.1, P *ᵥ x.2)) = (visited maxIter bs).map fun b => b.map fun x => (x.1, P *ᵥ x.2) := by
      unfold visited
      rw [List.length_map]
      cases maxIter.getD bs.length with
      | zero => rfl
      | succ m => simp only [List.map_take]
    unfold estimateLambda
    rw [hv, List.foldl_map]
    simp only [hu, List.length_map]
  · unfold ifvp
    have hm : qs * Pᵀ * (P * v) * qaᵀ = qs * v * qaᵀ := by
      rw [Matrix.mul_assoc qs, ← Matrix.mul_assoc Pᵀ, hP, Matrix.one_mul]
    split_ifs
    · rfl
    · simp only [hm, Option.map_some, transpose_mul, transpose_transpose]
      rw [Matrix.mul_assoc P, Matrix.mul_assoc P]

/-- The exchange of two neurons. -/
def swp : Matrix (Fin 2) (Fin 2) ℚ := !![0, 1; 1, 0]

/-- Output gradients and eigenvectors (in the columns, as `torch.linalg.eigh` returns them) of a layer with one input and two outputs. -/
def dsA : Fin 2 → ℚ := ![3 / 5, 4 / 5]
def dsB : Fin 2 → ℚ := ![-8 / 5, 6 / 5]
def eigQ : Matrix (Fin 2) (Fin 2) ℚ := !![3 / 5, -4 / 5; 4 / 5, 3 / 5]

/-- The score of gradient `v` with itself that EK-FAC computes from these output gradients and this eigenvector matrix. -/
def score (Q : Matrix (Fin 2) (Fin 2) ℚ) (d1 d2 : Fin 2 → ℚ) (v : Matrix (Fin 2) (Fin 1) ℚ) : Option ℚ :=
  (estimateLambda (p := 1) 1 Q [[(fun _ => 1, d1), (fun _ => 1, d2)]] none).bind fun lam =>
    (ifvp 1 Q lam 0 v).map fun w => v 0 0 * w 0 0 + v 1 0 * w 1 0

/-- EK-FAC's scores depend on the numbering of the neurons: both matrices are valid results of `eigh` for the same layer with its two outputs exchanged, and the scores of
the same gradient differ. -/
theorem C208_ekfac_swap : ∃ S : Matrix (Fin 2) (Fin 2) ℚ,
    (∀ i j, S i j = (dsA i * dsA j + dsB i * dsB j) / 2) ∧
    eigQ * eigQᵀ = 1 ∧ S * eigQ = eigQ * diagonal ![1 / 2, 2] ∧
    (swp * eigQ) * (swp * eigQ)ᵀ = 1 ∧ (swp * S * swpᵀ) * (swp * eigQ) = (swp * eigQ) * diagonal ![1 / 2, 2] ∧
    score eigQ dsA dsB !![1; 0] = some (557450 / 454129) ∧
    score (swp * eigQ) (swp *ᵥ dsA) (swp *ᵥ dsB) (swp * (!![1; 0] : Matrix (Fin 2) (Fin 1) ℚ)) = some (26 / 25) ∧ (557450 / 454129 : ℚ) ≠ 26 / 25 := by
  refine ⟨!![73 / 50, -18 / 25; -18 / 25, 26 / 25], ?_, ?_, ?_, ?_, ?_, ?_, ?_, ?_⟩
  · intro i j
    fin_cases i <;> fin_cases j <;> norm_num [dsA, dsB]
  all_goals decide +kernel

end ekfac

end Verif.Rotate
