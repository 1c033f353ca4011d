import Verif.DataInf.Model
import Verif.Base.Blocks
import Mathlib.LinearAlgebra.Matrix.NonsingularInverse
import Mathlib.LinearAlgebra.Matrix.ToLinearEquiv
import Mathlib.Algebra.BigOperators.Field
import Mathlib.Algebra.Order.BigOperators.Ring.Finset
import Mathlib.Data.Real.Basic
import Mathlib.Tactic.FieldSimp
import Mathlib.Tactic.NormNum

/-! # C15, C16: DataInf -/

namespace Verif.DataInf

open Matrix

/-- Specification: the regularised rank-one matrix `g gᵀ + r I`. -/
def rankOne {n : Nat} (g : Fin n → ℝ) (r : ℝ) : Matrix (Fin n) (Fin n) ℝ := vecMulVec g g + r • 1

/-- `w` is the solution of `(g gᵀ + r I) w = v` that the code computes. -/
noncomputable def sol {n : Nat} (v g : Fin n → ℝ) (r : ℝ) : Fin n → ℝ :=
  fun k => (v k - (∑ k, v k * g k) / (r + ∑ k, g k ^ 2) * g k) / r

variable {n : Nat}

lemma den_pos {g : Fin n → ℝ} {r : ℝ} (hr : 0 < r) : 0 < r + ∑ k, g k ^ 2 :=
  add_pos_of_pos_of_nonneg hr (Finset.sum_nonneg fun _ _ => sq_nonneg _)

lemma single_eq {v g : Fin n → ℝ} {r : ℝ} (hr : 0 < r) : single v g r = some (sol v g r) := by
  unfold single sol
  rw [if_neg (by push Not; exact ⟨(den_pos hr).ne', hr.ne'⟩)]

/-- Sherman–Morrison, as an equivalence (so the solution is unique). -/
lemma rankOne_solve {v g w : Fin n → ℝ} {r : ℝ} (hr : 0 < r) : rankOne g r *ᵥ w = v ↔ w = sol v g r := by
  have hd := den_pos (g := g) hr
  have hmv : ∀ w : Fin n → ℝ, rankOne g r *ᵥ w = fun k => (∑ k, w k * g k) * g k + r * w k := by
    intro w
    rw [rankOne, add_mulVec, vecMulVec_mulVec, smul_mulVec, one_mulVec]
    funext k
    simp [dotProduct, mul_comm]
  have hs : (∑ k, sol v g r k * g k) = (∑ k, v k * g k) / (r + ∑ k, g k ^ 2) := by
    have : ∀ k, sol v g r k * g k = (v k * g k - (∑ k, v k * g k) / (r + ∑ k, g k ^ 2) * g k ^ 2) / r := by
      intro k; unfold sol; ring
    simp only [this]
    rw [← Finset.sum_div, Finset.sum_sub_distrib, ← Finset.mul_sum]
    field_simp
    ring
  constructor
  · intro h
    rw [hmv] at h
    have hk : ∀ k, v k = (∑ k, w k * g k) * g k + r * w k := fun k => by rw [← h]
    have hvg : ∑ k, v k * g k = (∑ k, w k * g k) * (r + ∑ k, g k ^ 2) := by
      have : ∀ k, v k * g k = (∑ k, w k * g k) * g k ^ 2 + r * (w k * g k) := by
        intro k; rw [hk k]; ring
      simp only [this]
      rw [Finset.sum_add_distrib, ← Finset.mul_sum, ← Finset.mul_sum]; ring
    funext k
    unfold sol
    rw [hvg, mul_div_cancel_right₀ _ hd.ne', hk k]
    field_simp
    ring
  · rintro rfl
    rw [hmv, hs]
    funext k
    unfold sol
    field_simp
    ring

lemma chunk_fold (r : ℝ) (hr : 0 < r) (v : Fin n → ℝ) (chunks : List (List (Fin n → ℝ))) (acc : Fin n → ℝ) :
    chunks.foldlM (fun acc chunk => do
      let parts ← chunk.mapM (fun g => single v g r)
      pure (acc + parts.sum)) acc = some (acc + (chunks.flatten.map (fun g => sol v g r)).sum) := by
  induction chunks generalizing acc with
  | nil => simp
  | cons c cs ih =>
    have hm : c.mapM (fun g => single v g r) = some (c.map (fun g => sol v g r)) := by
      simp only [single_eq hr]
      induction c with
      | nil => rfl
      | cons a c ih' => rw [List.mapM_cons, ih']; rfl
    rw [List.foldlM_cons, hm]
    simp only [Option.pure_def, Option.bind_eq_bind, Option.bind_some]
    have := ih (acc + (c.map (fun g => sol v g r)).sum)
    simp only [Option.pure_def, Option.bind_eq_bind] at this
    rw [this]
    simp [add_assoc]

lemma transformLayer_eq (tenth : ℝ) (bs : Nat) (hb : 0 < bs) (grads : List (Fin n → ℝ)) (reg : Option ℝ)
    (hr : 0 < reg.getD tenth) (v : Fin n → ℝ) :
    transformLayer tenth bs grads reg v
      = some (fun k => (grads.map (fun g => sol v g (reg.getD tenth))).sum k / (grads.length : ℝ)) := by
  unfold transformLayer split
  have := chunk_fold (reg.getD tenth) hr v (batches bs grads) 0
  rw [flatten_batches bs hb, zero_add] at this
  simp only [this]
  rfl

/-- **C15.** For one layer, every positive effective regularisation `r` and every chunk size, the transformed test gradient is the
mean over the cached gradients `g` of the unique `w_g` with `(g gᵀ + r I) w_g = v`. -/
theorem C15_datainf_layer (tenth : ℝ) (bs : Nat) (hb : 0 < bs) (grads : List (Fin n → ℝ)) (reg : Option ℝ)
    (hr : 0 < reg.getD tenth) (v : Fin n → ℝ) :
    ∃ W : (Fin n → ℝ) → Fin n → ℝ,
      (∀ g w, rankOne g (reg.getD tenth) *ᵥ w = v ↔ w = W g) ∧
      transformLayer tenth bs grads reg v = some (fun k => (grads.map (fun g => W g k)).sum / (grads.length : ℝ)) := by
  refine ⟨fun g => sol v g (reg.getD tenth), fun g w => rankOne_solve hr, ?_⟩
  rw [transformLayer_eq tenth bs hb grads reg hr v]
  congr 1
  funext k
  congr 1
  induction grads with
  | nil => rfl
  | cons g gs ih => simp [ih]

/-- **C15.** The matrix form: each summand is `(g gᵀ + r I)⁻¹ v`. -/
theorem C15_datainf_inverse (tenth : ℝ) (bs : Nat) (hb : 0 < bs) (grads : List (Fin n → ℝ)) (reg : Option ℝ)
    (hr : 0 < reg.getD tenth) (v : Fin n → ℝ) :
    transformLayer tenth bs grads reg v
      = some (fun k => (grads.map (fun g => ((rankOne g (reg.getD tenth))⁻¹ *ᵥ v) k)).sum / (grads.length : ℝ)) := by
  obtain ⟨W, h1, h2⟩ := C15_datainf_layer tenth bs hb grads reg hr v
  rw [h2]
  have hinv : ∀ g, (rankOne g (reg.getD tenth))⁻¹ *ᵥ v = W g := by
    intro g
    apply (h1 g _).1
    have hdet : (rankOne g (reg.getD tenth)).det ≠ 0 := by
      intro h0
      obtain ⟨u, hu, hz⟩ := Matrix.exists_mulVec_eq_zero_iff.2 h0
      have e1 := (rankOne_solve (v := 0) (g := g) (w := u) hr).1 hz
      have e2 := (rankOne_solve (v := 0) (g := g) (w := 0) hr).1 (by simp)
      exact hu (e1.trans e2.symm)
    rw [mulVec_mulVec, mul_nonsing_inv _ hdet.isUnit, one_mulVec]
  simp only [hinv]

/-- **C15.** The whole row: layer by layer, the concatenation of the layer transforms of the layer's slices. -/
theorem C15_datainf_row (tenth : ℝ) {D : Nat} (bs : Nat) (hb : 0 < bs) (sizes : List Nat) (grads : List (Fin D → ℝ))
    (reg : Option ℝ) (hr : 0 < reg.getD tenth) (v : Fin D → ℝ) :
    transform tenth bs sizes grads reg v = some ((List.range sizes.length).flatMap (fun l =>
      List.ofFn (fun k => (grads.map (fun g => ((rankOne (slice g (sizes.take l).sum (sizes.getD l 0)) (reg.getD tenth))⁻¹ *ᵥ
        slice v (sizes.take l).sum (sizes.getD l 0)) k)).sum / (grads.length : ℝ)))) := by
  unfold transform
  simp only [C15_datainf_inverse tenth bs hb _ reg hr, List.map_map, List.length_map, Option.map_some]
  rw [show (fun l => some (List.ofFn (fun k => (List.map ((fun g => ((rankOne g (reg.getD tenth))⁻¹ *ᵥ
    slice v (sizes.take l).sum (sizes.getD l 0)) k) ∘ fun g => slice g (sizes.take l).sum (sizes.getD l 0)) grads).sum
      / (grads.length : ℝ)))) = (fun l => pure (List.ofFn (fun k => (List.map ((fun g => ((rankOne g (reg.getD tenth))⁻¹ *ᵥ
    slice v (sizes.take l).sum (sizes.getD l 0)) k) ∘ fun g => slice g (sizes.take l).sum (sizes.getD l 0)) grads).sum
      / (grads.length : ℝ)))) from rfl, List.mapM_pure]
  rfl

/-- **C15 (disagreement).** With the constructor's default `regularization = 0.0` every non-empty cache makes the result
non-finite, for every test gradient. -/
theorem C15_default_regularization_nonfinite (tenth : ℝ) (bs : Nat) (hb : 0 < bs) (grads : List (Fin n → ℝ)) (hne : grads ≠ [])
    (v : Fin n → ℝ) : transformLayer tenth bs grads (some 0) v = none := by
  unfold transformLayer split
  obtain ⟨g, gs, rfl⟩ := List.exists_cons_of_ne_nil hne
  have hnb : 0 < numBatches bs (g :: gs).length := (lt_numBatches_iff hb).2 (by simp)
  obtain ⟨k, hk⟩ := Nat.exists_eq_succ_of_ne_zero hnb.ne'
  have hbatch : batchAt bs (g :: gs) 0 = g :: batchAt (bs - 1) gs 0 := by
    obtain ⟨b, rfl⟩ := Nat.exists_eq_succ_of_ne_zero hb.ne'
    simp [batchAt]
  have hs : single v g 0 = none := by simp [single]
  simp only [batches, hk, List.range_succ_eq_map, List.map_cons, hbatch, List.foldlM_cons, List.mapM_cons,
    Option.getD_some, hs]
  rfl

example : ∃ u, transformLayer (1 / 10 : ℝ) 2 [![1, 0], ![0, 2], ![1, 1]] (some 1) ![3, 4] = some u :=
  ⟨_, C15_datainf_inverse (1 / 10) 2 (by norm_num) _ _ (by simp) _⟩

example : rankOne (![1, 1] : Fin 2 → ℝ) 1 *ᵥ ![2 / 3, 5 / 3] = ![3, 4] := by
  rw [rankOne_solve one_pos]
  funext k; fin_cases k <;> simp [sol] <;> norm_num

/-! ## C16 -/

/-- **C16.** The result does not depend on the chunk size (which is the number of rows of the test batch) nor on the order of the
cached gradients. -/
theorem C16_chunk_and_order_independent (tenth : ℝ) {D : Nat} (bs bs' : Nat) (hb : 0 < bs) (hb' : 0 < bs') (sizes : List Nat)
    (grads grads' : List (Fin D → ℝ)) (hp : grads.Perm grads') (reg : Option ℝ) (hr : 0 < reg.getD tenth) (v : Fin D → ℝ) :
    transform tenth bs sizes grads reg v = transform tenth bs' sizes grads' reg v := by
  rw [C15_datainf_row tenth bs hb sizes grads reg hr v, C15_datainf_row tenth bs' hb' sizes grads' reg hr v]
  congr 2
  funext l
  congr 1
  funext k
  rw [(hp.map _).sum_eq, hp.length_eq]

/-- **C16 (disagreement).** The cache stores one gradient per BATCH: with ratio 1 the number of cached gradients is the number of
batches of the loader, not the number of samples. -/
theorem C16_cache_one_rep_per_batch {X C α : Type} (batchGrad : C → List X → α) (full : Loader X) (c : C) (hb : 0 < full.bs)
    (hs : full.supported = true) (hne : full.data ≠ []) :
    cacheReps batchGrad full 1 c = .ok ((batches full.bs full.data).map (batchGrad c)) := by
  have key : ∀ k, (List.range k).foldlM (fun acc b =>
    if !full.supported then .error .typeError else .ok (acc ++ [batchGrad c (full.batch b)])) ([] : List α)
      = Except.ok (ε := Err) ((List.range k).map (fun b => batchGrad c (full.batch b))) := by
    intro k
    induction k with
    | zero => rfl
    | succ k ih =>
      rw [List.range_succ, List.foldlM_append, ih]
      simp [bind, Except.bind, hs, pure, Except.pure]
  have hnb : 0 < full.nb := (lt_numBatches_iff hb).2 (by simpa using List.length_pos_iff.2 hne)
  have hi : iterNumber full.nb 1 = full.nb := by simp [iterNumber]
  unfold cacheReps
  rw [hi, min_self, key]
  simp only [bind, Except.bind, List.length_map, List.length_range]
  rw [if_neg (by omega)]
  simp only [pure, Except.pure, batches, List.map_map]
  rfl

/-- **C16 (disagreement).** Consequently the transformed representation depends on the batch size of the loader passed to `cache`:
two samples with gradients `1` and `3` (batch gradient = mean), `r = 1`, test gradient `1`. -/
theorem C16_depends_on_cache_batch_size : ∃ l l' : List (Fin 1 → ℝ),
    cacheReps (fun (_ : Unit) (b : List ℝ) (_ : Fin 1) => b.sum / b.length) ⟨[1, 3], 2, true⟩ 1 () = .ok l ∧
    cacheReps (fun (_ : Unit) (b : List ℝ) (_ : Fin 1) => b.sum / b.length) ⟨[1, 3], 1, true⟩ 1 () = .ok l' ∧
    transformLayer (1 / 10) 1 l (some 1) (fun _ => 1) = some (fun _ => 1 / 5) ∧
    transformLayer (1 / 10) 1 l' (some 1) (fun _ => 1) = some (fun _ => 3 / 10) := by
  refine ⟨_, _, C16_cache_one_rep_per_batch _ _ _ (by norm_num) rfl (by simp),
    C16_cache_one_rep_per_batch _ _ _ (by norm_num) rfl (by simp), ?_, ?_⟩
  · rw [transformLayer_eq _ _ one_pos _ _ (by simp)]
    congr 1
    funext k
    simp [batches, numBatches, batchAt, sol]; norm_num
  · rw [transformLayer_eq _ _ one_pos _ _ (by simp)]
    congr 1
    funext k
    simp [batches, numBatches, batchAt, sol, List.range_succ]; norm_num

end Verif.DataInf
