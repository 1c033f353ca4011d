import Verif.Attr.ArnoldiProps
import Verif.Attr.DerivProps
import Verif.TracIn.Props
import Verif.TRAK.Props
import Verif.DataInf.Props
import Verif.Hessian.CGModel
import Verif.Hessian.LissaMeanProps
import Mathlib.Tactic.LinearCombination
import Mathlib.Tactic.NormNum

/-!
# C211: symmetry of the scores of samples on each other, and linearity of the solvers

The samples of one data set are attributed to each other with a loss function that is also the target function.
-/

namespace Verif.Symmetry

open Matrix Verif.Hessian

variable {X C : Type} {p : ℕ}

/-! ## Symmetric scores -/

/-- **C211.** TracIn with target = loss: the influence of sample `i` on sample `j` is that of `j` on `i`, normalised or not, for all
batch sizes of the two loaders. -/
theorem C211_tracin {d : ℕ} (A : TracIn.Attributor X C d) (hA : A.gTarget = A.gLoss) (hl : A.ckpts.length = A.weights.length)
    (tr te : Loader X) (hd : te.data = tr.data) (b1 : 0 < tr.bs) (b2 : 0 < te.bs) (s1 : tr.supported = true) (s2 : te.supported = true) :
    ∃ M, TracIn.attribute' A tr te = .ok M ∧ ∀ i j, i < tr.data.length → j < tr.data.length → M.f i j = M.f j i := by
  obtain ⟨M, h1, _, _, h2⟩ := TracIn.C09_tracin_entry A tr te hl b1 b2 s1 s2
  refine ⟨M, h1, fun i j hi hj => ?_⟩
  rw [h2 i hi j (by rw [hd]; exact hj), h2 j hj i (by rw [hd]; exact hi)]
  simp only [TracIn.pairScore, hA, hd]
  congr 1
  refine List.map_congr_left fun cw _ => ?_
  congr 1
  have hip : ∀ u v : Fin d → ℝ, TracIn.ip u v = TracIn.ip v u := by
    intro u v
    unfold TracIn.ip
    exact Finset.sum_congr rfl fun k _ => mul_comm _ _
  rw [hip, mul_comm (max (TracIn.nrm (A.gLoss cw.1 tr.data[i])) _)]

theorem quad_symm {R : Type} [Field R] {A : Matrix (Fin p) (Fin p) R} (hA : Aᵀ = A) (u v : Fin p → R) : u ⬝ᵥ A *ᵥ v = v ⬝ᵥ A *ᵥ u := by
  rw [dotProduct_mulVec, ← mulVec_transpose, hA, dotProduct_comm]

/-- **C211.** Explicit influence functions with target = loss: symmetric whenever the Hessians of the batches are symmetric. -/
theorem C211_explicit {R : Type} [Field R] [CharZero R] (g : C → X → Fin p → R) (hess : C → List X → Matrix (Fin p) (Fin p) R) (reg : R)
    (ckpts : List C) (full tr te : Loader X) (hd : te.data = tr.data) (b1 : 0 < tr.bs) (b2 : 0 < te.bs) (s1 : tr.supported = true)
    (s2 : te.supported = true) (s3 : full.supported = true) (hsym : ∀ c ∈ ckpts, ∀ b < full.nb, (hess c (full.batch b))ᵀ = hess c (full.batch b))
    (hdet : ∀ c ∈ ckpts, ∀ b < full.nb, (hess c (full.batch b) + reg • (1 : Matrix (Fin p) (Fin p) R)).det ≠ 0) :
    ∃ M, (Attr.attribute' (Attr.explicitSub g g hess reg) ckpts (some full) none tr te).2 = .ok M ∧
      ∀ i j, i < tr.data.length → j < tr.data.length → M.f i j = M.f j i := by
  obtain ⟨M, h1, h2⟩ := Attr.C08_explicit_attribute g g hess reg ckpts full tr te b1 b2 s1 s2 s3 hdet
  refine ⟨M, h1, fun i j hi hj => ?_⟩
  rw [h2 i hi j (by rw [hd]; exact hj), h2 j hj i (by rw [hd]; exact hi)]
  simp only [hd]
  congr 2
  refine List.map_congr_left fun c hc => ?_
  rw [dotProduct_sum, dotProduct_sum]
  refine Finset.sum_congr rfl fun b hb => ?_
  apply quad_symm
  rw [transpose_nonsing_inv, transpose_add, hsym c hc b (Finset.mem_range.1 hb), transpose_smul, transpose_one]

/-- **C211.** In particular for every loss function that is twice continuously differentiable at the checkpoints. -/
theorem C211_task (loss : (Fin p → ℝ) → List X → ℝ) (reg : ℝ) (ckpts : List (Fin p → ℝ)) (full tr te : Loader X) (hd : te.data = tr.data)
    (b1 : 0 < tr.bs) (b2 : 0 < te.bs) (s1 : tr.supported = true) (s2 : te.supported = true) (s3 : full.supported = true)
    (hC : ∀ θ ∈ ckpts, ∀ b < full.nb, ContDiffAt ℝ 2 (fun t => loss t (full.batch b)) θ)
    (hdet : ∀ θ ∈ ckpts, ∀ b < full.nb,
      (Attr.hessAt (fun t => loss t (full.batch b)) θ + reg • (1 : Matrix (Fin p) (Fin p) ℝ)).det ≠ 0) :
    ∃ M, (Attr.attribute' (Attr.taskSub loss (fun θ x => loss θ [x]) reg) ckpts (some full) none tr te).2 = .ok M ∧
      ∀ i j, i < tr.data.length → j < tr.data.length → M.f i j = M.f j i :=
  C211_explicit _ _ reg ckpts full tr te hd b1 b2 s1 s2 s3 (fun θ hθ b hb => Attr.hessAt_symm (hC θ hθ b hb)) hdet

/-- **C211.** Arnoldi influence functions: both gradients go through the same projector, so the scores are symmetric whatever the
number of iterations, the start vector and the number of kept eigenpairs are; not even the Hessians need to be symmetric. -/
theorem C211_arnoldi (g : Attr.ACfg X C p) (hg : g.gTest = g.gTrain) (ckpts : List C) (r : ℚ) (hr : 1 ≤ r) (full tr te : Loader X)
    (hx : full.data ≠ []) (hb : 0 < full.bs) (hd : te.data = tr.data) (b1 : 0 < tr.bs) (b2 : 0 < te.bs) (s1 : tr.supported = true)
    (s2 : te.supported = true) (st : Attr.ASt X) :
    ∃ M, (Attr.aattribute g ckpts (Attr.acache r ckpts.length .list full st).1 none tr te).2 = .ok M ∧
      ∀ i j, i < tr.data.length → j < tr.data.length → M.f i j = M.f j i := by
  have hbi := Attr.C127_batch_independent g ckpts r 1 hr le_rfl full.data hx full.bs full.bs hb hb full.supported true st ⟨none, none⟩
    none none tr te
  have e0 : (Attr.aattribute g ckpts (Attr.acache 1 ckpts.length .list ⟨full.data, full.bs, true⟩ ⟨none, none⟩).1 none tr te).2
      = (Attr.attribute' (g.sub full.data) ckpts (some ⟨full.data, full.bs, true⟩) none tr te).2 := by
    rw [← Attr.aattribute_eq]
    obtain ⟨-, -, -, -, q1, q2⟩ := Attr.C127_cache 1 ckpts.length .list ⟨full.data, full.bs, true⟩ ⟨none, none⟩ hb
    rw [if_pos ⟨rfl, hx, by norm_num⟩] at q2
    have hl : full.data.length ≤ (⌈((Loader.nb ⟨full.data, full.bs, true⟩ : ℕ) : ℚ) * 1⌉).toNat * full.bs := by
      rw [mul_one, Int.ceil_natCast, Int.toNat_natCast]
      by_contra hc
      have := (lt_numBatches_iff (n := full.data.length) (b := Loader.nb ⟨full.data, full.bs, true⟩) hb).2 (by omega)
      exact absurd this (by simp [Loader.nb])
    simp only [List.take_of_length_le hl] at q2
    generalize (Attr.acache 1 ckpts.length .list ⟨full.data, full.bs, true⟩ ⟨none, none⟩).1 = a at q1 q2
    cases a
    simp_all
  obtain ⟨M, e, -, -, f⟩ := Attr.C05_attribute_entry (g.sub full.data) ckpts (some ⟨full.data, full.bs, true⟩) none tr te b1 b2 s1 s2
    (by simp)
  refine ⟨M, by rw [show full = ⟨full.data, full.bs, full.supported⟩ from rfl, hbi, e0]; exact e, fun i j hi hj => ?_⟩
  rw [f i hi j (by rw [hd]; exact hj), f j hj i (by rw [hd]; exact hi)]
  congr 2
  refine List.map_congr_left fun c _ => ?_
  simp only [Attr.score, Attr.ACfg.sub, Attr.plainSub, hg, hd]
  exact Finset.sum_congr rfl fun k _ => mul_comm _ _

/-- **C211.** DataInf: the transformation of a layer is symmetric and linear, for a positive regularisation. -/
theorem C211_datainf {n : ℕ} (tenth : ℝ) (bs : ℕ) (hb : 0 < bs) (grads : List (Fin n → ℝ)) (reg : Option ℝ) (hr : 0 < reg.getD tenth) :
    ∃ T : (Fin n → ℝ) → Fin n → ℝ, (∀ v, DataInf.transformLayer tenth bs grads reg v = some (T v)) ∧
      (∀ u v, u ⬝ᵥ T v = v ⬝ᵥ T u) ∧ ∀ (a b : ℝ) u v, T (a • u + b • v) = a • T u + b • T v := by
  have hsym : ∀ g, (DataInf.rankOne g (reg.getD tenth) : Matrix (Fin n) (Fin n) ℝ)ᵀ = DataInf.rankOne g (reg.getD tenth) := by
    intro g
    ext i j
    by_cases h : i = j
    · subst h; rfl
    · simp [DataInf.rankOne, h, Ne.symm h, vecMulVec_apply, mul_comm]
  refine ⟨_, fun v => DataInf.C15_datainf_inverse tenth bs hb grads reg hr v, ?_, ?_⟩
  · have key : ∀ u v : Fin n → ℝ, u ⬝ᵥ (fun k => (grads.map (fun g => ((DataInf.rankOne g (reg.getD tenth))⁻¹ *ᵥ v) k)).sum / (grads.length : ℝ))
        = (grads.map fun g => u ⬝ᵥ (DataInf.rankOne g (reg.getD tenth))⁻¹ *ᵥ v).sum / (grads.length : ℝ) := by
      intro u v
      simp only [dotProduct, mul_div_assoc']
      rw [← Finset.sum_div]
      congr 1
      induction grads with
      | nil => simp
      | cons g l ih => simp only [List.map_cons, List.sum_cons, mul_add, Finset.sum_add_distrib, ih]
    intro u v
    rw [key, key]
    congr 2
    refine List.map_congr_left fun g _ => ?_
    exact quad_symm (by rw [transpose_nonsing_inv, hsym]) u v
  · intro a b u v
    funext k
    simp only [mulVec_add, mulVec_smul, Pi.add_apply, Pi.smul_apply, smul_eq_mul]
    have : ∀ l : List (Fin n → ℝ), (l.map fun g => a * ((DataInf.rankOne g (reg.getD tenth))⁻¹ *ᵥ u) k + b * ((DataInf.rankOne g (reg.getD tenth))⁻¹ *ᵥ v) k).sum
        = a * (l.map fun g => ((DataInf.rankOne g (reg.getD tenth))⁻¹ *ᵥ u) k).sum
          + b * (l.map fun g => ((DataInf.rankOne g (reg.getD tenth))⁻¹ *ᵥ v) k).sum := by
      intro l
      induction l with
      | nil => simp
      | cons g l ih => simp only [List.map_cons, List.sum_cons, ih]; ring
    rw [this]
    ring

/-! ## TRAK: symmetric up to the factor of the training sample -/

/-- **C211.** TRAK with target = loss: the two scores of a pair of training samples differ exactly by the mean over the checkpoints of
one minus the probability of the sample that takes the training side. -/
theorem C211_trak {R : Type} [Field R] [CharZero R] {d : ℕ} (A : TRAK.Attributor R X C d) (hA : A.phiTarget = A.phiLoss) (hc : A.ckpts ≠ [])
    (tr te : Loader X) (hd : te.data = tr.data) (b1 : 0 < tr.bs) (b2 : 0 < te.bs) (s1 : tr.supported = true)
    (s2 : te.supported = true) (n1 : tr.data ≠ [])
    (hdet : ∀ c ∈ A.ckpts, (TRAK.gram A.reg tr.data.length (TRAK.feat A c tr.data)).det ≠ 0) :
    ∃ M, TRAK.attribute' A TRAK.fresh te (some tr) = .ok M ∧ ∀ i (hi : i < tr.data.length) j (hj : j < tr.data.length),
      M.f i j * ((A.ckpts.map fun c => 1 - A.prob c tr.data[j]).sum / (A.ckpts.length : R)) =
      M.f j i * ((A.ckpts.map fun c => 1 - A.prob c tr.data[i]).sum / (A.ckpts.length : R)) := by
  obtain ⟨M, h1, _, _, h2⟩ := TRAK.C13_trak_entry A TRAK.fresh rfl tr te b1 b2 s1 s2 n1 (by rw [hd]; exact n1) hc hdet
  refine ⟨M, h1, fun i hi j hj => ?_⟩
  rw [h2 i hi j (by rw [hd]; exact hj), h2 j hj i (by rw [hd]; exact hi)]
  simp only [hd, hA]
  have hK : ∀ c, (TRAK.gram A.reg tr.data.length (TRAK.feat A c tr.data))ᵀ = TRAK.gram A.reg tr.data.length (TRAK.feat A c tr.data) := by
    intro c
    rw [← TRAK.kernel_eq_gram]
    ext a b
    by_cases h : a = b
    · subst h; rfl
    · simp [TRAK.kernel, h, Ne.symm h, mul_comm]
  rw [List.map_congr_left fun c _ => quad_symm (by rw [transpose_nonsing_inv, hK c]) (A.phiLoss c tr.data[j]) (A.phiLoss c tr.data[i])]
  ring

/-! ## Linearity in the test gradient -/

/-- **C211.** The explicit transformation of a test gradient is linear. -/
theorem C211_explicit_linear {R : Type} [Field R] (hess : C → List X → Matrix (Fin p) (Fin p) R) (reg : R) (c : C) (full : Loader X)
    (s : full.supported = true) (hdet : ∀ b < full.nb, (hess c (full.batch b) + reg • (1 : Matrix (Fin p) (Fin p) R)).det ≠ 0) :
    ∃ T : (Fin p → R) → Fin p → R, (∀ v, Attr.explicitTransTest hess reg c full v = .ok (T v)) ∧
      ∀ (a b : R) u v, T (a • u + b • v) = a • T u + b • T v := by
  refine ⟨fun v => ∑ b ∈ Finset.range full.nb, (hess c (full.batch b) + reg • (1 : Matrix (Fin p) (Fin p) R))⁻¹ *ᵥ v, fun v => ?_, ?_⟩
  · refine Attr.C08_accumulates_sum _ full v s _ fun b hb => ?_
    simp [Attr.ihvpExplicit, Attr.linSolve, hdet b hb]
  · intro a b u v
    simp only [mulVec_add, mulVec_smul, Finset.sum_add_distrib, Finset.smul_sum]

theorem lissaRec_linear {R : Type} [Field R] {n : ℕ} (hv : List ℕ → Matrix (Fin n) (Fin n) R) (perm : ℕ → List ℕ) (bs : ℕ) (d s a b : R)
    (u v : Fin n → R) (T : ℕ) : lissaRec hv perm bs d s (a • u + b • v) T = a • lissaRec hv perm bs d s u T + b • lissaRec hv perm bs d s v T := by
  induction T with
  | zero => rfl
  | succ T ih =>
    simp only [lissaRec, ih, mulVec_add, mulVec_smul]
    funext k
    simp only [Pi.add_apply, Pi.sub_apply, Pi.smul_apply, smul_eq_mul]
    ring

/-- **C211.** For fixed draws LiSSA is linear in the vector. -/
theorem C211_lissa_linear {R : Type} [Field R] [DecidableEq R] {n : ℕ} (hv : List ℕ → Matrix (Fin n) (Fin n) R) (perm : ℕ → ℕ → List ℕ)
    (bs rep T : ℕ) (hrep : 0 < rep) (d s : R) (hs : s ≠ 0) :
    ∃ L : (Fin n → R) → Fin n → R, (∀ v, ihvpLissa hv perm bs rep T d s v = .ok (some (L v))) ∧
      ∀ (a b : R) u v, L (a • u + b • v) = a • L u + b • L v := by
  refine ⟨fun v => ((rep : R)⁻¹) • ((List.range rep).map fun r : ℕ => (1 / s) • lissaRec hv (perm r) bs d s v T).sum, fun v => ?_, ?_⟩
  · unfold ihvpLissa
    rw [if_neg hrep.ne', if_neg hs]
  · intro a b u v
    simp only [lissaRec_linear]
    generalize List.range rep = l
    have : (l.map fun r : ℕ => (1 / s) • (a • lissaRec hv (perm r) bs d s u T + b • lissaRec hv (perm r) bs d s v T)).sum
        = a • (l.map fun r : ℕ => (1 / s) • lissaRec hv (perm r) bs d s u T).sum
          + b • (l.map fun r : ℕ => (1 / s) • lissaRec hv (perm r) bs d s v T).sum := by
      induction l with
      | nil => simp
      | cons r l ih =>
        rw [List.map_cons, List.map_cons, List.map_cons, List.sum_cons, List.sum_cons, List.sum_cons, ih, smul_add, smul_add, smul_add,
          smul_comm (1 / s) a, smul_comm (1 / s) b]
        abel
    rw [this, smul_add, smul_comm, smul_comm (rep : R)⁻¹ b]

/-- **C211.** The Arnoldi solver is linear and symmetric once the Krylov space and the eigenpairs are fixed. -/
theorem C211_arnoldi_solver {n : ℕ} (a : Arn n) (k : ℕ) (eigs : List (ℝ × (ℕ → ℝ))) (h : ∀ e ∈ lastK k eigs, e.1 ≠ 0) :
    ∃ T : V n → V n, (∀ v, arnoldiIhvp a k eigs v = some (T v)) ∧ (∀ u v, u ⬝ᵥ T v = v ⬝ᵥ T u) ∧
      ∀ (x y : ℝ) u v, T (x • u + y • v) = x • T u + y • T v := by
  refine ⟨fun v => ((lastK k eigs).map (fun e =>
    let E : V n := ((List.range a.cols.length).map (fun k => e.2 k • a.proj.getD k 0)).sum
    ((v ⬝ᵥ E) * 1.0 / e.1) • E)).sum, fun v => ?_, ?_, ?_⟩
  · unfold arnoldiIhvp
    rw [if_neg]
    rintro ⟨e, he, h0⟩
    exact h e he h0
  · intro u v
    generalize lastK k eigs = l
    have hone : (1.0 : ℝ) = 1 := by norm_num
    simp only [hone, mul_one]
    induction l with
    | nil => simp
    | cons e l ih =>
      simp only [List.map_cons, List.sum_cons, dotProduct_add, dotProduct_smul, smul_eq_mul, ih]
      ring
  · intro x y u v
    generalize lastK k eigs = l
    have hone : (1.0 : ℝ) = 1 := by norm_num
    simp only [hone, mul_one]
    induction l with
    | nil => simp
    | cons e l ih =>
      rw [List.map_cons, List.map_cons, List.map_cons, List.sum_cons, List.sum_cons, List.sum_cons, ih]
      simp only [add_dotProduct, smul_dotProduct, smul_eq_mul]
      funext i
      simp only [Pi.add_apply, Pi.smul_apply, smul_eq_mul]
      ring

/-! ## Conjugate gradients: homogeneous, but neither additive nor symmetric -/

/-- **C211.** Conjugate gradients with any number of iterations: a nonzero multiple of the vector gives that multiple of the result
(and a non-finite result exactly if the vector itself does). -/
theorem C211_cg_homogeneous {R : Type} [Field R] [DecidableEq R] {n : ℕ} (A : Matrix (Fin n) (Fin n) R) (m : ℕ) (tol : R) (c : R) (hc : c ≠ 0)
    (v : Fin n → R) : ihvpCG A m tol (c • v) = (ihvpCG A m tol v).map (c • ·) := by
  have key : cgRun A (c • v) m = (cgRun A v m).map fun s => ⟨c • s.x, c • s.g, c • s.d⟩ := by
    induction m with
    | zero => simp [cgRun, cgInit, mulVec_smul, smul_sub]
    | succ m ih =>
      simp only [cgRun, ih]
      cases cgRun A v m with
      | none => rfl
      | some s =>
        simp only [Option.map_some, Option.bind_some, cgStep, mulVec_smul, smul_dotProduct, dotProduct_smul, smul_eq_mul]
        have hcc : c * c ≠ 0 := mul_ne_zero hc hc
        by_cases h1 : s.d ⬝ᵥ A *ᵥ s.d = 0
        · simp [h1]
        by_cases h2 : s.g ⬝ᵥ s.g = 0
        · simp [h1, h2, hc]
        have q1 : c * (c * (s.g ⬝ᵥ s.g)) / (c * (c * (s.d ⬝ᵥ A *ᵥ s.d))) = (s.g ⬝ᵥ s.g) / (s.d ⬝ᵥ A *ᵥ s.d) := by
          rw [mul_div_mul_left _ _ hc, mul_div_mul_left _ _ hc]
        rw [if_neg (by simp [h1, hc]), if_neg h1, if_neg (by simp [h2, hc]), if_neg h2, q1]
        set α := (s.g ⬝ᵥ s.g) / (s.d ⬝ᵥ A *ᵥ s.d)
        have q2 : c • s.g - α • c • A *ᵥ s.d = c • (s.g - α • A *ᵥ s.d) := by rw [smul_sub, smul_comm]
        rw [q2]
        simp only [smul_dotProduct, dotProduct_smul, smul_eq_mul]
        rw [mul_div_mul_left _ _ hc, mul_div_mul_left _ _ hc]
        simp only [Option.map_some, Option.some.injEq, CG.mk.injEq, true_and, smul_add]
        exact ⟨by rw [smul_comm], by rw [smul_comm c]⟩
  unfold ihvpCG
  rw [key]
  cases cgRun A v m <;> rfl

/-- **C211.** One iteration with the matrix `diag(2, 3)`: the results for `(1,0)` and `(0,1)` do not add up to the result for their sum,
and the bilinear form of the result is not symmetric. -/
theorem C211_cg_not_linear (tol : ℚ) : ∃ x y z : Fin 2 → ℚ,
    ihvpCG !![2, 0; 0, 3] 1 tol ![1, 0] = some x ∧ ihvpCG !![2, 0; 0, 3] 1 tol ![0, 1] = some y ∧
    ihvpCG !![2, 0; 0, 3] 1 tol ![1, 1] = some z ∧ x + y ≠ z ∧ ![1, 1] ⬝ᵥ x = 1 / 2 ∧ ![1, 0] ⬝ᵥ z = 9 / 14 := by
  refine ⟨![1 / 2, 0], ![0, 1 / 3], ![9 / 14, 2 / 7], ?_, ?_, ?_, ?_, ?_, ?_⟩
  · change ihvpCG !![2, 0; 0, 3] 1 (0 : ℚ) ![1, 0] = some ![1 / 2, 0]
    decide +kernel
  · change ihvpCG !![2, 0; 0, 3] 1 (0 : ℚ) ![0, 1] = some ![0, 1 / 3]
    decide +kernel
  · change ihvpCG !![2, 0; 0, 3] 1 (0 : ℚ) ![1, 1] = some ![9 / 14, 2 / 7]
    decide +kernel
  · intro h
    have := congrFun h 0
    norm_num at this
  · norm_num [dotProduct, Fin.sum_univ_two]
  · norm_num [dotProduct, Fin.sum_univ_two]

/-! ## LiSSA: symmetric in expectation, not for single draws -/

/-- **C211.** If all drawn batches have the same symmetric Hessian (full batches), the bilinear form of LiSSA is symmetric. -/
theorem C211_lissa_full {R : Type} [Field R] [DecidableEq R] {n : ℕ} (hv : List ℕ → Matrix (Fin n) (Fin n) R) (perm : ℕ → ℕ → List ℕ)
    (bs rep T : ℕ) (hrep : 0 < rep) (d s : R) (hs : s ≠ 0) (H : Matrix (Fin n) (Fin n) R) (hH : Hᵀ = H)
    (hall : ∀ r t, hv (sampleBatch (perm r t) bs) = H) (u v : Fin n → R) :
    ∃ x y, ihvpLissa hv perm bs rep T d s u = .ok (some x) ∧ ihvpLissa hv perm bs rep T d s v = .ok (some y) ∧ v ⬝ᵥ x = u ⬝ᵥ y := by
  have hB : ∃ B : Matrix (Fin n) (Fin n) R, Bᵀ = B ∧ H * B = B * H ∧ ∀ r w, lissaRec hv (perm r) bs d s w T = B *ᵥ w := by
    induction T with
    | zero => exact ⟨1, transpose_one, by simp, fun r w => by simp [lissaRec]⟩
    | succ T ih =>
      obtain ⟨B, h1, h2, h3⟩ := ih
      refine ⟨1 + (1 - d) • B - (1 / s) • (H * B), ?_, ?_, fun r w => ?_⟩
      · rw [transpose_sub, transpose_add, transpose_one, transpose_smul, transpose_smul, transpose_mul, h1, hH, h2]
      · simp only [mul_sub, mul_add, sub_mul, add_mul, mul_one, one_mul, mul_smul_comm, smul_mul_assoc, h2, mul_assoc]
        rw [← mul_assoc, h2, mul_assoc]
      · simp only [lissaRec, h3, hall, sub_mulVec, add_mulVec, one_mulVec, smul_mulVec, mulVec_mulVec]
  obtain ⟨B, h1, -, h3⟩ := hB
  unfold ihvpLissa
  simp only [if_neg hrep.ne', if_neg hs, h3]
  refine ⟨_, _, rfl, rfl, ?_⟩
  simp only [dotProduct_smul, smul_eq_mul]
  congr 1
  generalize List.range rep = l
  induction l with
  | nil => simp
  | cons r l ih =>
    simp only [List.map_cons, List.sum_cons, dotProduct_add, dotProduct_smul, ih]
    rw [quad_symm h1]

/-- **C211.** Over uniform draws the expected scores are symmetric when the Hessians of all batches are. -/
theorem C211_lissa_mean {N n : ℕ} (hv : List ℕ → Matrix (Fin n) (Fin n) ℝ) (hsym : ∀ l, (hv l)ᵀ = hv l) (b rep T : ℕ) (d s : ℝ)
    (hrep : 0 < rep) (hs : s ≠ 0) (u v : Fin n → ℝ) :
    ∃ x y : (Fin rep → Fin T → Equiv.Perm (Fin N)) → Fin n → ℝ,
      (∀ σ, ihvpLissa hv (drawsAll σ) b rep T d s u = .ok (some (x σ))) ∧ (∀ σ, ihvpLissa hv (drawsAll σ) b rep T d s v = .ok (some (y σ))) ∧
      v ⬝ᵥ expect x = u ⬝ᵥ expect y := by
  obtain ⟨x, h1, h2⟩ := C134_mean (N := N) hv b rep T d s u hrep hs
  obtain ⟨y, h3, h4⟩ := C134_mean (N := N) hv b rep T d s v hrep hs
  refine ⟨x, y, h1, h3, ?_⟩
  rw [h2, h4, dotProduct_smul, dotProduct_smul]
  congr 1
  refine quad_symm ?_ v u
  have he : (expect fun π : Equiv.Perm (Fin N) => hv ((permList π).take b))ᵀ = expect fun π : Equiv.Perm (Fin N) => hv ((permList π).take b) := by
    unfold expect
    rw [transpose_smul, transpose_sum]
    simp only [hsym]
  rw [transpose_sum]
  refine Finset.sum_congr rfl fun k _ => ?_
  rw [transpose_pow, transpose_sub, transpose_add, transpose_smul, transpose_smul, transpose_one, he]

/-- Two symmetric batch Hessians that do not commute. -/
def exHv (l : List ℕ) : Matrix (Fin 2) (Fin 2) ℚ := if l = [0] then !![1, 0; 0, 0] else !![0, 1; 1, 0]

/-- **C211.** For single draws LiSSA is not symmetric although all batch Hessians are: two steps that draw two samples in turn. -/
theorem C211_lissa_draw : (∀ l, (exHv l)ᵀ = exHv l) ∧ ∃ x y,
    ihvpLissa exHv (fun _ t => if t = 0 then [0, 1] else [1, 0]) 1 1 2 0 1 ![1, 0] = .ok (some x) ∧
    ihvpLissa exHv (fun _ t => if t = 0 then [0, 1] else [1, 0]) 1 1 2 0 1 ![0, 1] = .ok (some y) ∧ ![0, 1] ⬝ᵥ x ≠ ![1, 0] ⬝ᵥ y := by
  refine ⟨fun l => ?_, ![2, -1], ![-2, 3], ?_, ?_, ?_⟩
  · unfold exHv
    split
    · ext i j; fin_cases i <;> fin_cases j <;> rfl
    · ext i j; fin_cases i <;> fin_cases j <;> rfl
  · unfold ihvpLissa
    rw [if_neg (by decide), if_neg (by decide)]
    refine congrArg (fun z : Fin 2 → ℚ => Except.ok (some z)) ?_
    decide +kernel
  · unfold ihvpLissa
    rw [if_neg (by decide), if_neg (by decide)]
    refine congrArg (fun z : Fin 2 → ℚ => Except.ok (some z)) ?_
    decide +kernel
  · norm_num [dotProduct, Fin.sum_univ_two]

/-! ## The hypotheses can be met -/

example : ∃ M, TracIn.attribute' (⟨fun _ x _ => x, fun _ x _ => x, [()], [2], true⟩ : TracIn.Attributor ℝ Unit 1) ⟨[1, 3, 5], 2, true⟩
    ⟨[1, 3, 5], 1, true⟩ = .ok M ∧ ∀ i j, i < 3 → j < 3 → M.f i j = M.f j i :=
  C211_tracin _ rfl rfl _ _ rfl (by decide) (by decide) rfl rfl

example : ∃ M, (Attr.attribute' (Attr.explicitSub (fun (_ : Unit) (x : ℚ) (_ : Fin 1) => x) (fun _ x _ => x)
    (fun _ b => Matrix.of fun _ _ => (b.length : ℚ)) 1) [()] (some ⟨[1, 2, 3], 2, true⟩) none ⟨[4, 5], 1, true⟩ ⟨[4, 5], 2, true⟩).2 = .ok M ∧
    ∀ i j, i < 2 → j < 2 → M.f i j = M.f j i :=
  C211_explicit _ _ 1 [()] ⟨[1, 2, 3], 2, true⟩ _ _ rfl (by decide) (by decide) rfl rfl rfl (fun _ _ _ _ => by ext i j; rfl) (by
    intro c _ b _
    rw [Matrix.det_fin_one]
    simp only [Matrix.add_apply, Matrix.of_apply, Matrix.smul_apply, Matrix.one_apply_eq, smul_eq_mul, mul_one]
    positivity)

example (v : Fin 2 → ℚ) : ihvpCG !![2, 0; 0, 3] 4 0 ((5 : ℚ) • v) = (ihvpCG !![2, 0; 0, 3] 4 0 v).map ((5 : ℚ) • ·) :=
  C211_cg_homogeneous _ 4 0 5 (by norm_num) v

example (u v : Fin 2 → ℚ) : ∃ x y, ihvpLissa (fun _ => !![2, 1; 1, 3]) (fun _ _ => [0]) 1 2 5 (1 / 10) 4 u = .ok (some x) ∧
    ihvpLissa (fun _ => !![2, 1; 1, 3]) (fun _ _ => [0]) 1 2 5 (1 / 10) 4 v = .ok (some y) ∧ v ⬝ᵥ x = u ⬝ᵥ y :=
  C211_lissa_full _ _ 1 2 5 (by decide) _ 4 (by norm_num) !![2, 1; 1, 3] (by ext i j; fin_cases i <;> fin_cases j <;> rfl) (fun _ _ => rfl) u v

end Verif.Symmetry
