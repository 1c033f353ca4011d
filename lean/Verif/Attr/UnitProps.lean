import Verif.Attr.SymmetryProps
import Verif.Attr.CGAttrModel
import Verif.EKFAC.Model
import Mathlib.Tactic.FieldSimp

/-!
# C212: scores when the loss or the target is measured in another unit

The loss is multiplied by `c`, the target by `t`.
-/

namespace Verif.Units

open Matrix Verif.Hessian

variable {X : Type} {p : ℕ}

theorem gradAt_mul (c : ℝ) (f : (Fin p → ℝ) → ℝ) (θ : Fin p → ℝ) : Attr.gradAt (fun t => c * f t) θ = c • Attr.gradAt f θ := by
  funext k
  have : fderiv ℝ (fun t => c * f t) θ = c • fderiv ℝ f θ := by
    exact congrFun (fderiv_const_smul_field (𝕜 := ℝ) (f := f) c) θ
  simp [Attr.gradAt, this]

theorem hessAt_mul (c : ℝ) (f : (Fin p → ℝ) → ℝ) (θ : Fin p → ℝ) : Attr.hessAt (fun t => c * f t) θ = c • Attr.hessAt f θ := by
  ext j k
  have h : (fun y => Attr.gradAt (fun t => c * f t) y j) = c • fun y => Attr.gradAt f y j := by
    funext y
    rw [gradAt_mul]
    rfl
  have := congrFun (fderiv_const_smul_field (𝕜 := ℝ) (f := fun y => Attr.gradAt f y j) c) θ
  simp only [Attr.hessAt, Matrix.of_apply, h, this, Matrix.smul_apply]
  rfl

/-! ## TracIn -/

/-- **C212.** Unnormalised TracIn: the scores are multiplied by both factors. -/
theorem C212_tracin (loss : (Fin p → ℝ) → List X → ℝ) (target : (Fin p → ℝ) → X → ℝ) (c t : ℝ) (ckpts : List (Fin p → ℝ)) (weights : List ℝ)
    (hl : ckpts.length = weights.length) (tr te : Loader X) (b1 : 0 < tr.bs) (b2 : 0 < te.bs) (s1 : tr.supported = true)
    (s2 : te.supported = true) :
    ∃ M M', TracIn.attribute' (Attr.taskTracIn loss target ckpts weights) tr te = .ok M ∧
      TracIn.attribute' (Attr.taskTracIn (fun θ b => c * loss θ b) (fun θ y => t * target θ y) ckpts weights) tr te = .ok M' ∧
      ∀ i j, i < tr.data.length → j < te.data.length → M'.f i j = c * t * M.f i j := by
  obtain ⟨M, h1, _, _, h2⟩ := TracIn.C09_tracin_entry (Attr.taskTracIn loss target ckpts weights) tr te hl b1 b2 s1 s2
  obtain ⟨M', h1', _, _, h2'⟩ := TracIn.C09_tracin_entry
    (Attr.taskTracIn (fun θ b => c * loss θ b) (fun θ y => t * target θ y) ckpts weights) tr te hl b1 b2 s1 s2
  refine ⟨M, M', h1, h1', fun i j hi hj => ?_⟩
  rw [h2 i hi j hj, h2' i hi j hj, ← List.sum_map_mul_left]
  refine congrArg List.sum (List.map_congr_left fun cw _ => ?_)
  simp only [TracIn.pairScore, Attr.taskTracIn, gradAt_mul, Bool.false_eq_true, if_false]
  have : ∀ u v : Fin p → ℝ, TracIn.ip (c • u) (t • v) = c * t * TracIn.ip u v := by
    intro u v
    simp only [TracIn.ip, Pi.smul_apply, smul_eq_mul, Finset.mul_sum]
    exact Finset.sum_congr rfl fun k _ => by ring
  rw [this]
  ring

/-- **C212.** Normalised TracIn: positive factors change nothing, as long as no gradient is shorter than the constant `1e-12` of the
normalisation, before or after. -/
theorem C212_tracin_normalised (loss : (Fin p → ℝ) → List X → ℝ) (target : (Fin p → ℝ) → X → ℝ) (c t : ℝ) (hc : 0 < c) (ht : 0 < t)
    (ckpts : List (Fin p → ℝ)) (weights : List ℝ) (hl : ckpts.length = weights.length) (tr te : Loader X) (b1 : 0 < tr.bs) (b2 : 0 < te.bs)
    (s1 : tr.supported = true) (s2 : te.supported = true)
    (n1 : ∀ θ ∈ ckpts, ∀ x ∈ tr.data, 1e-12 ≤ TracIn.nrm (Attr.gradAt (fun s => loss s [x]) θ) ∧
      1e-12 ≤ c * TracIn.nrm (Attr.gradAt (fun s => loss s [x]) θ))
    (n2 : ∀ θ ∈ ckpts, ∀ y ∈ te.data, 1e-12 ≤ TracIn.nrm (Attr.gradAt (fun s => target s y) θ) ∧
      1e-12 ≤ t * TracIn.nrm (Attr.gradAt (fun s => target s y) θ)) :
    ∃ M M', TracIn.attribute' { Attr.taskTracIn loss target ckpts weights with normalized := true } tr te = .ok M ∧
      TracIn.attribute' { Attr.taskTracIn (fun θ b => c * loss θ b) (fun θ y => t * target θ y) ckpts weights with normalized := true } tr te = .ok M' ∧
      ∀ i j, i < tr.data.length → j < te.data.length → M'.f i j = M.f i j := by
  obtain ⟨M, h1, _, _, h2⟩ := TracIn.C09_tracin_entry { Attr.taskTracIn loss target ckpts weights with normalized := true } tr te hl b1 b2 s1 s2
  obtain ⟨M', h1', _, _, h2'⟩ := TracIn.C09_tracin_entry
    { Attr.taskTracIn (fun θ b => c * loss θ b) (fun θ y => t * target θ y) ckpts weights with normalized := true } tr te hl b1 b2 s1 s2
  refine ⟨M, M', h1, h1', fun i j hi hj => ?_⟩
  rw [h2 i hi j hj, h2' i hi j hj]
  refine congrArg List.sum (List.map_congr_left fun cw hcw => ?_)
  have hθ : cw.1 ∈ ckpts := (List.of_mem_zip hcw).1
  have hn : ∀ (a : ℝ) (_ : 0 < a) (v : Fin p → ℝ), TracIn.nrm (a • v) = a * TracIn.nrm v := by
    intro a ha v
    simp only [TracIn.nrm, Pi.smul_apply, smul_eq_mul]
    rw [show (∑ k, (a * v k) ^ 2) = a ^ 2 * ∑ k, v k ^ 2 by rw [Finset.mul_sum]; exact Finset.sum_congr rfl fun k _ => by ring,
      Real.sqrt_mul (sq_nonneg a), Real.sqrt_sq ha.le]
  have hip : ∀ u v : Fin p → ℝ, TracIn.ip (c • u) (t • v) = c * t * TracIn.ip u v := by
    intro u v
    simp only [TracIn.ip, Pi.smul_apply, smul_eq_mul, Finset.mul_sum]
    exact Finset.sum_congr rfl fun k _ => by ring
  simp only [TracIn.pairScore, Attr.taskTracIn, gradAt_mul, if_true, hip, hn c hc, hn t ht]
  obtain ⟨a1, a2⟩ := n1 cw.1 hθ _ (List.getElem_mem hi)
  obtain ⟨a3, a4⟩ := n2 cw.1 hθ _ (List.getElem_mem hj)
  rw [max_eq_left a1, max_eq_left a2, max_eq_left a3, max_eq_left a4]
  have q1 : TracIn.nrm (Attr.gradAt (fun s => loss s [tr.data[i]]) cw.1) ≠ 0 := by
    intro h; rw [h] at a1; norm_num at a1
  have q2 : TracIn.nrm (Attr.gradAt (fun s => target s te.data[j]) cw.1) ≠ 0 := by
    intro h; rw [h] at a3; norm_num at a3
  congr 1
  field_simp

/-! ## Explicit influence functions -/

/-- **C212.** Explicit influence function: if the regularisation is multiplied with the loss, the unit of the loss cancels, and the scores are
multiplied by the factor of the target. -/
theorem C212_explicit (loss : (Fin p → ℝ) → List X → ℝ) (target : (Fin p → ℝ) → X → ℝ) (reg c t : ℝ) (hc : c ≠ 0) (ckpts : List (Fin p → ℝ))
    (full tr te : Loader X) (b1 : 0 < tr.bs) (b2 : 0 < te.bs) (s1 : tr.supported = true) (s2 : te.supported = true) (s3 : full.supported = true)
    (hdet : ∀ θ ∈ ckpts, ∀ b < full.nb, (Attr.hessAt (fun s => loss s (full.batch b)) θ + reg • (1 : Matrix (Fin p) (Fin p) ℝ)).det ≠ 0) :
    ∃ M M', (Attr.attribute' (Attr.taskSub loss target reg) ckpts (some full) none tr te).2 = .ok M ∧
      (Attr.attribute' (Attr.taskSub (fun θ b => c * loss θ b) (fun θ y => t * target θ y) (c * reg)) ckpts (some full) none tr te).2 = .ok M' ∧
      ∀ i j, i < tr.data.length → j < te.data.length → M'.f i j = t * M.f i j := by
  have hH : ∀ θ b, Attr.hessAt (fun s => c * loss s b) θ + (c * reg) • (1 : Matrix (Fin p) (Fin p) ℝ) =
      c • (Attr.hessAt (fun s => loss s b) θ + reg • (1 : Matrix (Fin p) (Fin p) ℝ)) := by
    intro θ b
    rw [hessAt_mul, smul_add, smul_smul]
  obtain ⟨M, h1, h2⟩ := Attr.C08_explicit_attribute (fun θ x => Attr.gradAt (fun s => loss s [x]) θ) (fun θ y => Attr.gradAt (fun s => target s y) θ)
    (fun θ b => Attr.hessAt (fun s => loss s b) θ) reg ckpts full tr te b1 b2 s1 s2 s3 hdet
  obtain ⟨M', h1', h2'⟩ := Attr.C08_explicit_attribute (fun θ x => Attr.gradAt (fun s => c * loss s [x]) θ)
    (fun θ y => Attr.gradAt (fun s => t * target s y) θ) (fun θ b => Attr.hessAt (fun s => c * loss s b) θ) (c * reg) ckpts full tr te b1 b2 s1 s2 s3
    (fun θ hθ b hb => by
      rw [hH, Matrix.det_smul]
      exact mul_ne_zero (pow_ne_zero _ hc) (hdet θ hθ b hb))
  refine ⟨M, M', h1, h1', fun i j hi hj => ?_⟩
  rw [h2 i hi j hj, h2' i hi j hj, ← mul_div_assoc, ← List.sum_map_mul_left]
  congr 2
  refine List.map_congr_left fun θ hθ => ?_
  simp only [gradAt_mul, dotProduct_sum, Finset.mul_sum]
  refine Finset.sum_congr rfl fun b hb => ?_
  have hu := hdet θ hθ b (Finset.mem_range.1 hb)
  have hinv : (Attr.hessAt (fun s => c * loss s (full.batch b)) θ + (c * reg) • (1 : Matrix (Fin p) (Fin p) ℝ))⁻¹ =
      c⁻¹ • (Attr.hessAt (fun s => loss s (full.batch b)) θ + reg • (1 : Matrix (Fin p) (Fin p) ℝ))⁻¹ := by
    rw [hH]
    apply Matrix.inv_eq_right_inv
    rw [smul_mul_smul_comm, mul_inv_cancel₀ hc, Matrix.mul_nonsing_inv _ (isUnit_iff_ne_zero.2 hu), one_smul]
  rw [hinv]
  simp only [smul_mulVec, mulVec_smul, smul_dotProduct, dotProduct_smul, smul_eq_mul]
  field_simp

/-- **C212.** So multiplying the loss by `c` alone is the same as dividing the regularisation by `c`; without regularisation it changes nothing. -/
theorem C212_explicit_reg (loss : (Fin p → ℝ) → List X → ℝ) (target : (Fin p → ℝ) → X → ℝ) (reg c : ℝ) (hc : c ≠ 0) (ckpts : List (Fin p → ℝ))
    (full tr te : Loader X) (b1 : 0 < tr.bs) (b2 : 0 < te.bs) (s1 : tr.supported = true) (s2 : te.supported = true) (s3 : full.supported = true)
    (hdet : ∀ θ ∈ ckpts, ∀ b < full.nb, (Attr.hessAt (fun s => loss s (full.batch b)) θ + (reg / c) • (1 : Matrix (Fin p) (Fin p) ℝ)).det ≠ 0) :
    ∃ M M', (Attr.attribute' (Attr.taskSub loss target (reg / c)) ckpts (some full) none tr te).2 = .ok M ∧
      (Attr.attribute' (Attr.taskSub (fun θ b => c * loss θ b) target reg) ckpts (some full) none tr te).2 = .ok M' ∧
      ∀ i j, i < tr.data.length → j < te.data.length → M'.f i j = M.f i j := by
  have := C212_explicit loss target (reg / c) c 1 hc ckpts full tr te b1 b2 s1 s2 s3 hdet
  simpa [mul_div_cancel₀ _ hc] using this

/-! ## Conjugate gradients -/

/-- **C212.** Conjugate gradients: a nonzero factor of the target multiplies the transformed test gradient, at every number of iterations; the
same errors and non-finite values occur. -/
theorem C212_cg_target {C : Type} (hess : C → List X → Matrix (Fin p) (Fin p) ℝ) (m : ℕ) (tol reg t : ℝ) (ht : t ≠ 0) (c : C) (full : Loader X)
    (v : Fin p → ℝ) : Attr.cgTransTest hess m tol reg c full (t • v) = (Attr.cgTransTest hess m tol reg c full v).map (·.map (t • ·)) := by
  unfold Attr.cgTransTest
  have key : ∀ (l : List ℕ) (a : Option (Fin p → ℝ)),
      l.foldlM (fun (acc : Option (Fin p → ℝ)) b =>
        if !full.supported then (.error .typeError : Except Err (Option (Fin p → ℝ)))
        else
          let u := ihvpCG (hess c (full.batch b) + reg • (1 : Matrix (Fin p) (Fin p) ℝ)) m tol (t • v)
          .ok (acc.bind fun a => u.map fun u => a + u)) (a.map (t • ·)) =
      (l.foldlM (fun (acc : Option (Fin p → ℝ)) b =>
        if !full.supported then (.error .typeError : Except Err (Option (Fin p → ℝ)))
        else
          let u := ihvpCG (hess c (full.batch b) + reg • (1 : Matrix (Fin p) (Fin p) ℝ)) m tol v
          .ok (acc.bind fun a => u.map fun u => a + u)) a).map (·.map (t • ·)) := by
    intro l
    induction l with
    | nil => intro a; rfl
    | cons b l ih =>
      intro a
      simp only [List.foldlM_cons]
      by_cases hs : full.supported = true
      · simp only [hs, Bool.not_true, Bool.false_eq_true, if_false] at ih ⊢
        simp only [bind, Except.bind]
        rw [← ih]
        congr 1
        rw [Symmetry.C211_cg_homogeneous _ m tol t ht v]
        cases a with
        | none => rfl
        | some a =>
          cases ihvpCG (hess c (full.batch b) + reg • (1 : Matrix (Fin p) (Fin p) ℝ)) m tol v with
          | none => rfl
          | some u => simp [smul_add]
      · simp only [Bool.not_eq_true] at hs
        simp [hs, bind, Except.bind, Except.map]
  simpa using key (List.range full.nb) (some 0)

/-- **C212.** But unconverged conjugate gradients do depend on the unit of the loss: one iteration with `A` and with `2A` (which should give half
as much). -/
theorem C212_cg_loss (tol : ℚ) : ∃ x y : Fin 2 → ℚ, ihvpCG !![2, 0; 0, 3] 1 tol ![1, 1] = some x ∧
    ihvpCG ((2 : ℚ) • !![2, 0; 0, 3]) 1 tol ![1, 1] = some y ∧ (2 : ℚ) • y ≠ x := by
  refine ⟨![9 / 14, 2 / 7], ![14 / 31, 8 / 93], ?_, ?_, ?_⟩
  · change ihvpCG !![2, 0; 0, 3] 1 (0 : ℚ) ![1, 1] = some ![9 / 14, 2 / 7]
    decide +kernel
  · have h2 : (2 : ℚ) • (!![2, 0; 0, 3] : Matrix (Fin 2) (Fin 2) ℚ) = !![4, 0; 0, 6] := by
      ext i j
      fin_cases i <;> fin_cases j <;> norm_num
    rw [h2]
    change ihvpCG !![4, 0; 0, 6] 1 (0 : ℚ) ![1, 1] = some ![14 / 31, 8 / 93]
    decide +kernel
  · intro h
    have := congrFun h 0
    norm_num at this

/-! ## LiSSA, DataInf, EK-FAC -/

/-- **C212.** LiSSA: multiplying the loss and the argument `scaling` by `c` gives exactly the `c`-th part, for every draw and depth. -/
theorem C212_lissa {R : Type} [Field R] [DecidableEq R] {n : ℕ} (hv : List ℕ → Matrix (Fin n) (Fin n) R) (perm : ℕ → ℕ → List ℕ)
    (bs rep T : ℕ) (d s c t : R) (hc : c ≠ 0) (v : Fin n → R) :
    ihvpLissa (fun l => c • hv l) perm bs rep T d (c * s) (t • v) = (ihvpLissa hv perm bs rep T d s v).map (·.map ((t / c) • ·)) := by
  have key : ∀ (q : ℕ → List ℕ) (hs : s ≠ 0) (T : ℕ), lissaRec (fun l => c • hv l) q bs d (c * s) (t • v) T = t • lissaRec hv q bs d s v T := by
    intro q hs T
    induction T with
    | zero => rfl
    | succ T ih =>
      simp only [lissaRec, ih, mulVec_smul, smul_mulVec]
      funext k
      simp only [Pi.add_apply, Pi.sub_apply, Pi.smul_apply, smul_eq_mul]
      field_simp
  unfold ihvpLissa
  by_cases h0 : rep = 0
  · simp [h0, Except.map]
  by_cases hs : s = 0
  · simp [h0, hs, Except.map]
  rw [if_neg h0, if_neg h0, if_neg (mul_ne_zero hc hs), if_neg hs]
  simp only [Except.map, Option.map_some, key _ hs]
  congr 2
  rw [smul_comm]
  congr 1
  generalize List.range rep = l
  induction l with
  | nil => simp
  | cons r l ih =>
    rw [List.map_cons, List.map_cons, List.sum_cons, List.sum_cons, smul_add, ih]
    congr 1
    rw [smul_smul, smul_smul]
    congr 1
    field_simp

/-- **C212.** DataInf: multiplying the gradients by `c` and the regularisation by `c²` divides the result by `c²`; a factor of the test
gradient comes out. -/
theorem C212_datainf {n : ℕ} (tenth : ℝ) (bs : ℕ) (hb : 0 < bs) (grads : List (Fin n → ℝ)) (reg c t : ℝ) (hr : 0 < reg) (hc : c ≠ 0) (v : Fin n → ℝ) :
    ∃ u, DataInf.transformLayer tenth bs grads (some reg) v = some u ∧
      DataInf.transformLayer tenth bs (grads.map (c • ·)) (some (c ^ 2 * reg)) (t • v) = some ((t / c ^ 2) • u) := by
  have hc2 : 0 < c ^ 2 := by positivity
  refine ⟨_, DataInf.C15_datainf_inverse tenth bs hb grads (some reg) hr v, ?_⟩
  rw [DataInf.C15_datainf_inverse tenth bs hb _ (some (c ^ 2 * reg)) (mul_pos hc2 hr)]
  congr 1
  funext k
  simp only [List.map_map, List.length_map, Function.comp_def, Option.getD_some, Pi.smul_apply, smul_eq_mul]
  have hone : ∀ g : Fin n → ℝ, DataInf.rankOne (c • g) (c ^ 2 * reg) = c ^ 2 • DataInf.rankOne g reg := by
    intro g
    ext i j
    simp only [DataInf.rankOne, Matrix.add_apply, Matrix.smul_apply, vecMulVec_apply, Pi.smul_apply, smul_eq_mul]
    ring
  have hinv : ∀ g : Fin n → ℝ, (DataInf.rankOne (c • g) (c ^ 2 * reg))⁻¹ *ᵥ (t • v) = (t / c ^ 2) • ((DataInf.rankOne g reg)⁻¹ *ᵥ v) := by
    intro g
    have hdet : ∀ (g : Fin n → ℝ) (r : ℝ), 0 < r → IsUnit (DataInf.rankOne g r).det := by
      intro g r hr
      rw [isUnit_iff_ne_zero]
      intro h0
      obtain ⟨w, hw, hw0⟩ := Matrix.exists_mulVec_eq_zero_iff.2 h0
      obtain ⟨W, h1, -⟩ := DataInf.C15_datainf_layer tenth bs hb [g] (some r) hr 0
      have a := (h1 g w).1 hw0
      have b := (h1 g 0).1 (mulVec_zero _)
      exact hw (a.trans b.symm)
    rw [hone]
    have : (c ^ 2 • DataInf.rankOne g reg)⁻¹ = (c ^ 2)⁻¹ • (DataInf.rankOne g reg)⁻¹ := by
      apply Matrix.inv_eq_right_inv
      rw [smul_mul_smul_comm, mul_inv_cancel₀ hc2.ne', Matrix.mul_nonsing_inv _ (hdet g reg hr), one_smul]
    rw [this, smul_mulVec, mulVec_smul, smul_smul, div_eq_inv_mul]
  rw [← mul_div_assoc, ← List.sum_map_mul_left]
  simp only [hinv, Pi.smul_apply, smul_eq_mul]

/-- **C212.** EK-FAC: multiplying the eigenvalues and the damping by `c²` (gradients by `c`) divides the result by `c²`. -/
theorem C212_ekfac {R : Type} [Field R] [DecidableEq R] {a b : ℕ} (qa : Matrix (Fin a) (Fin a) R) (qs : Matrix (Fin b) (Fin b) R)
    (lam : Matrix (Fin b) (Fin a) R) (damping c t : R) (hc : c ≠ 0) (v : Matrix (Fin b) (Fin a) R) :
    EKFAC.ifvp qa qs (c ^ 2 • lam) (c ^ 2 * damping) (t • v) = (EKFAC.ifvp qa qs lam damping v).map ((t / c ^ 2) • ·) := by
  have hc2 : c ^ 2 ≠ 0 := pow_ne_zero _ hc
  have e : ∀ i j, (c ^ 2 • lam) i j + c ^ 2 * damping = c ^ 2 * (lam i j + damping) := by
    intro i j
    simp only [Matrix.smul_apply, smul_eq_mul]
    ring
  unfold EKFAC.ifvp
  simp only [e, mul_eq_zero, hc2, false_or]
  by_cases h : ∃ i j, lam i j + damping = 0
  · rw [if_pos h, if_pos h]; rfl
  rw [if_neg h, if_neg h]
  simp only [Option.map_some]
  congr 1
  rw [← Matrix.smul_mul, ← Matrix.mul_smul]
  congr 2
  ext i j
  simp only [Matrix.mul_smul, Matrix.smul_mul, Matrix.of_apply, Matrix.smul_apply, smul_eq_mul]
  have hne : lam i j + damping ≠ 0 := fun h0 => h ⟨i, j, h0⟩
  field_simp

/-- **C212.** EK-FAC: with all output gradients multiplied by `c`, `estimate_lambda` with the same eigenvectors gives `c²` times the eigenvalues. -/
theorem C212_ekfac_lambda {R : Type} [Field R] {a b : ℕ} (qa : Matrix (Fin a) (Fin a) R) (qs : Matrix (Fin b) (Fin b) R)
    (bs : List (List ((Fin a → R) × (Fin b → R)))) (maxIter : Option ℕ) (c : R) :
    EKFAC.estimateLambda qa qs (bs.map fun b => b.map fun x => (x.1, c • x.2)) maxIter =
      (EKFAC.estimateLambda qa qs bs maxIter).map (c ^ 2 • ·) := by
  have he : ∀ (x : Fin a → R) (ds : Fin b → R) i j, EKFAC.lambdaEntry qa qs x (c • ds) i j = c ^ 2 * EKFAC.lambdaEntry qa qs x ds i j := by
    intro x ds i j
    unfold EKFAC.lambdaEntry
    rw [Matrix.smul_vecMulVec, Matrix.mul_smul, Matrix.smul_mul, Matrix.smul_apply, smul_eq_mul, mul_pow]
  have hu : ∀ (cur : Option (Matrix (Fin b) (Fin a) R)) (l : List ((Fin a → R) × (Fin b → R))) (t : ℕ),
      EKFAC.updateLambda qa qs (cur.map (c ^ 2 • ·)) (l.map fun x => (x.1, c • x.2)) t = c ^ 2 • EKFAC.updateLambda qa qs cur l t := by
    intro cur l t
    ext i j
    rw [Matrix.smul_apply, smul_eq_mul]
    unfold EKFAC.updateLambda
    cases cur with
    | none =>
      simp only [Option.map_none, List.map_map, Function.comp_def, he, List.length_map, List.sum_map_mul_left, mul_div_assoc]
    | some old =>
      simp only [Option.map_some, List.map_map, Function.comp_def, he, List.length_map, List.sum_map_mul_left, Matrix.smul_apply, smul_eq_mul]
      ring
  have hf : ∀ (l : List (List ((Fin a → R) × (Fin b → R)))) (cur : Option (Matrix (Fin b) (Fin a) R)) (t : ℕ),
      (l.map fun b => b.map fun x => (x.1, c • x.2)).foldl (fun (st : Option (Matrix (Fin b) (Fin a) R) × ℕ) b =>
        (some (EKFAC.updateLambda qa qs st.1 b st.2), st.2 + b.length)) (cur.map (c ^ 2 • ·), t) =
      ((l.foldl (fun (st : Option (Matrix (Fin b) (Fin a) R) × ℕ) b =>
        (some (EKFAC.updateLambda qa qs st.1 b st.2), st.2 + b.length)) (cur, t)).1.map (c ^ 2 • ·),
       (l.foldl (fun (st : Option (Matrix (Fin b) (Fin a) R) × ℕ) b =>
        (some (EKFAC.updateLambda qa qs st.1 b st.2), st.2 + b.length)) (cur, t)).2) := by
    intro l
    induction l with
    | nil => intro cur t; rfl
    | cons x l ih =>
      intro cur t
      simp only [List.map_cons, List.foldl_cons, hu, List.length_map]
      exact ih (some (EKFAC.updateLambda qa qs cur x t)) _
  have hv : EKFAC.visited maxIter (bs.map fun b => b.map fun x => (x.1, c • x.2)) =
      (EKFAC.visited maxIter bs).map fun b => b.map fun x => (x.1, c • x.2) := by
    unfold EKFAC.visited
    rw [List.length_map]
    cases maxIter.getD bs.length with
    | zero => rfl
    | succ m => simp only [List.map_take]
  unfold EKFAC.estimateLambda
  rw [hv]
  exact congrArg Prod.fst (hf (EKFAC.visited maxIter bs) none 0)

/-- The layer cache with the output gradients multiplied by `c`. -/
def scaleRec {R : Type} [Field R] (c : R) (l : EKFAC.LayerRec R) : EKFAC.LayerRec R := { l with ds := l.ds.map fun d i => c * d i }

def scaleBatch {R : Type} [Field R] (c : R) (b : EKFAC.Batch R) : EKFAC.Batch R := { b with layers := b.layers.map (scaleRec c) }

/-- The input covariance unchanged, the covariance of the output gradients times `c²`. -/
def scaleCov {R : Type} [Field R] (c : R) (x : EKFAC.Cov R × EKFAC.Cov R) : EKFAC.Cov R × EKFAC.Cov R := (x.1, fun i j => c ^ 2 * x.2 i j)

theorem batchCov_scale {R : Type} [Field R] (c : R) (xs : List (ℕ → R)) (n : ℕ) :
    EKFAC.batchCov (xs.map fun d i => c * d i) n = fun i j => c ^ 2 * EKFAC.batchCov xs n i j := by
  funext i j
  unfold EKFAC.batchCov
  rw [List.map_map, ← mul_div_assoc, ← List.sum_map_mul_left]
  congr 2
  apply List.map_congr_left
  intro x _
  simp only [Function.comp]
  ring

theorem covNew_scale {R : Type} [Field R] (c : R) (t n : ℕ) (cur : Option (EKFAC.Cov R × EKFAC.Cov R)) (a ds : List (ℕ → R)) :
    EKFAC.covNew t n (cur.map (scaleCov c)) a (ds.map fun d i => c * d i) = scaleCov c (EKFAC.covNew t n cur a ds) := by
  cases cur with
  | none => simp only [Option.map_none, EKFAC.covNew, batchCov_scale, scaleCov]
  | some old =>
    simp only [Option.map_some, EKFAC.covNew, batchCov_scale, scaleCov, Prod.mk.injEq, true_and]
    funext i j
    unfold EKFAC.mix
    ring

theorem covLayer_scale {R : Type} [Field R] (c : R) (t n : ℕ) (l : EKFAC.LayerRec R) (cur : EKFAC.Dict (EKFAC.Cov R × EKFAC.Cov R))
    (st : Option (List (ℕ → R))) :
    EKFAC.covLayer t n ((fun k => (cur k).map (scaleCov c)), st) (scaleRec c l) =
      (EKFAC.covLayer t n (cur, st) l).map fun r => ((fun k => (r.1 k).map (scaleCov c)), r.2) := by
  have e : ∀ a, (fun k => if k = l.name then some (scaleCov c (EKFAC.covNew t n (cur l.name) a l.ds)) else (cur k).map (scaleCov c)) =
      fun k => (if k = l.name then some (EKFAC.covNew t n (cur l.name) a l.ds) else cur k).map (scaleCov c) := by
    intro a
    funext k
    by_cases hk : k = l.name <;> simp [hk]
  unfold EKFAC.covLayer scaleRec
  by_cases hn : l.ndim = 2
  · simp only [hn, if_true, covNew_scale, e]
    rfl
  · simp only [hn, if_false]
    cases st with
    | none => rfl
    | some a =>
      simp only [covNew_scale, e]
      rfl

theorem covLayers_scale {R : Type} [Field R] (c : R) (t n : ℕ) (ls : List (EKFAC.LayerRec R)) :
    ∀ (cur : EKFAC.Dict (EKFAC.Cov R × EKFAC.Cov R)) (st : Option (List (ℕ → R))),
      (ls.map (scaleRec c)).foldlM (EKFAC.covLayer t n) ((fun k => (cur k).map (scaleCov c)), st) =
        (ls.foldlM (EKFAC.covLayer t n) (cur, st)).map fun r => ((fun k => (r.1 k).map (scaleCov c)), r.2) := by
  induction ls with
  | nil => intro cur st; rfl
  | cons l ls ih =>
    intro cur st
    rw [List.map_cons, List.foldlM_cons, List.foldlM_cons, covLayer_scale]
    cases EKFAC.covLayer t n (cur, st) l with
    | error e => rfl
    | ok r => exact ih r.1 r.2

/-- **C212.** EK-FAC: with all output gradients multiplied by `c`, `estimate_covariance` gives the same input covariances and `c²` times the
covariances of the output gradients (and fails in the same cases). -/
theorem C212_ekfac_covariance {R : Type} [Field R] (c : R) (bs : List (EKFAC.Batch R)) (maxIter : Option ℕ) :
    EKFAC.estimateCovariance (bs.map (scaleBatch c)) maxIter =
      (EKFAC.estimateCovariance bs maxIter).map fun r k => (r k).map (scaleCov c) := by
  have hv : EKFAC.visited maxIter (bs.map (scaleBatch c)) = (EKFAC.visited maxIter bs).map (scaleBatch c) := by
    unfold EKFAC.visited
    rw [List.length_map]
    cases maxIter.getD bs.length with
    | zero => rfl
    | succ m => simp only [List.map_take]
  have hu : ∀ (cur : EKFAC.Dict (EKFAC.Cov R × EKFAC.Cov R)) (ls : List (EKFAC.LayerRec R)) (t n : ℕ),
      EKFAC.updateCovariance (fun k => (cur k).map (scaleCov c)) (ls.map (scaleRec c)) t n =
        (EKFAC.updateCovariance cur ls t n).map fun r k => (r k).map (scaleCov c) := by
    intro cur ls t n
    unfold EKFAC.updateCovariance
    rw [covLayers_scale]
    cases ls.foldlM (EKFAC.covLayer t n) (cur, none) <;> rfl
  have hf : ∀ (l : List (EKFAC.Batch R)) (cur : EKFAC.Dict (EKFAC.Cov R × EKFAC.Cov R)) (t : ℕ),
      (l.map (scaleBatch c)).foldlM (fun (st : EKFAC.Dict (EKFAC.Cov R × EKFAC.Cov R) × ℕ) (b : EKFAC.Batch R) => do
        let c ← EKFAC.updateCovariance st.1 b.layers st.2 b.size
        pure (c, st.2 + b.size)) ((fun k => (cur k).map (scaleCov c)), t) =
      (l.foldlM (m := Except Err) (fun (st : EKFAC.Dict (EKFAC.Cov R × EKFAC.Cov R) × ℕ) (b : EKFAC.Batch R) => do
        let c ← EKFAC.updateCovariance st.1 b.layers st.2 b.size
        pure (c, st.2 + b.size)) (cur, t)).map fun r => ((fun k => (r.1 k).map (scaleCov c)), r.2) := by
    intro l
    induction l with
    | nil => intro cur t; rfl
    | cons b l ih =>
      intro cur t
      rw [List.map_cons, List.foldlM_cons, List.foldlM_cons]
      simp only [scaleBatch, hu]
      cases EKFAC.updateCovariance cur b.layers t b.size with
      | error e => rfl
      | ok r => exact ih r _
  unfold EKFAC.estimateCovariance
  rw [hv]
  have := hf (EKFAC.visited maxIter bs) (fun _ => none) 0
  simp only [Option.map_none] at this
  rw [this]
  cases (EKFAC.visited maxIter bs).foldlM (m := Except Err) (fun (st : EKFAC.Dict (EKFAC.Cov R × EKFAC.Cov R) × ℕ) (b : EKFAC.Batch R) => do
        let c ← EKFAC.updateCovariance st.1 b.layers st.2 b.size
        pure (c, st.2 + b.size)) ((fun _ => none), 0) <;> rfl

/-! ## The hypotheses can be met -/

example : ∃ M M', (Attr.attribute' (Attr.taskSub (fun (θ : Fin 1 → ℝ) (b : List ℝ) => (b.map fun x => x * θ 0).sum) (fun θ y => y * θ 0) 1) [0]
      (some ⟨[1, 2], 1, true⟩) none ⟨[1, 2], 1, true⟩ ⟨[3], 1, true⟩).2 = .ok M ∧
    (Attr.attribute' (Attr.taskSub (fun (θ : Fin 1 → ℝ) (b : List ℝ) => 5 * (b.map fun x => x * θ 0).sum) (fun θ y => 7 * (y * θ 0)) (5 * 1)) [0]
      (some ⟨[1, 2], 1, true⟩) none ⟨[1, 2], 1, true⟩ ⟨[3], 1, true⟩).2 = .ok M' ∧
    ∀ i j, i < 2 → j < 1 → M'.f i j = 7 * M.f i j :=
  C212_explicit _ _ 1 5 7 (by norm_num) [0] ⟨[1, 2], 1, true⟩ ⟨[1, 2], 1, true⟩ ⟨[3], 1, true⟩ (by decide) (by decide) rfl rfl rfl (by
    intro θ _ b _
    have h1 : (fun s : Fin 1 → ℝ => ((Loader.batch ⟨[1, 2], 1, true⟩ b).map fun x : ℝ => x * s 0).sum) =
        fun s : Fin 1 → ℝ => (Loader.batch ⟨[1, 2], 1, true⟩ b : List ℝ).sum * s 0 := by
      funext s
      rw [List.sum_map_mul_right, List.map_id']
    have h2 : Attr.hessAt (fun s : Fin 1 → ℝ => (Loader.batch ⟨[1, 2], 1, true⟩ b : List ℝ).sum * s 0) θ = 0 := by
      rw [hessAt_mul]
      have : ∀ y, Attr.gradAt (fun s : Fin 1 → ℝ => s 0) y = fun _ => 1 := by
        intro y
        funext k
        have : fderiv ℝ (fun s : Fin 1 → ℝ => s 0) y = ContinuousLinearMap.proj 0 :=
          (ContinuousLinearMap.proj (R := ℝ) (φ := fun _ : Fin 1 => ℝ) 0).hasFDerivAt.fderiv
        obtain rfl : k = 0 := Subsingleton.elim _ _
        simp [Attr.gradAt, this]
      ext i j
      simp [Attr.hessAt, this]
    simp only [h1, h2]
    simp)

example (perm : ℕ → ℕ → List ℕ) (v : Fin 2 → ℚ) : ihvpLissa (fun _ => (3 : ℚ) • !![2, 1; 1, 3]) perm 1 2 5 (1 / 10) (3 * 4) ((6 : ℚ) • v) =
    (ihvpLissa (fun _ => !![2, 1; 1, 3]) perm 1 2 5 (1 / 10) 4 v).map (·.map (((6 : ℚ) / 3) • ·)) :=
  C212_lissa (fun _ => !![2, 1; 1, 3]) perm 1 2 5 (1 / 10) 4 3 6 (by norm_num) v

example : EKFAC.estimateLambda (1 : Matrix (Fin 1) (Fin 1) ℚ) (1 : Matrix (Fin 1) (Fin 1) ℚ) [[((fun _ => 2), (3 : ℚ) • fun _ => 5)]] none =
    (EKFAC.estimateLambda (1 : Matrix (Fin 1) (Fin 1) ℚ) (1 : Matrix (Fin 1) (Fin 1) ℚ) [[((fun _ => 2), fun _ => 5)]] none).map ((3 : ℚ) ^ 2 • ·) :=
  C212_ekfac_lambda 1 1 [[((fun _ => 2), fun _ => 5)]] none 3

example : ∃ r, EKFAC.estimateCovariance [scaleBatch 3 ⟨1, [⟨"fc", 2, [fun _ => 2], [fun _ => (5 : ℚ)]⟩]⟩] none = .ok r ∧
    (r "fc").map (fun x => (x.1 0 0, x.2 0 0)) = some (4, 225) := by
  refine ⟨_, C212_ekfac_covariance 3 [⟨1, [⟨"fc", 2, [fun _ => 2], [fun _ => (5 : ℚ)]⟩]⟩] none, ?_⟩
  decide +kernel

end Verif.Units
