import Verif.BlockIF.ScaleProps

/-!
# Block-projected influence scores in another basis (property C244)
-/

namespace Verif.BlockIF

open Verif

variable {K : Type} [Field K] {L : ℕ} {d : Fin L → ℕ}

/-! ### Specification -/

/-- Every layer's gradient expressed in another basis. -/
def rebase (P : (l : Fin L) → Matrix (Fin (d l)) (Fin (d l)) K) (g : Row K d) : Row K d :=
  fun l k => ∑ m, P l k m * g l m

/-- A loader over the same samples, whose gradients are expressed in another basis. -/
def Data.rebase (P : (l : Fin L) → Matrix (Fin (d l)) (Fin (d l)) K) (D : Data K d) : Data K d :=
  ⟨D.spec, D.batches.map (List.map (Verif.BlockIF.rebase P))⟩

/-- The columns have the same length, which is not zero, and are perpendicular: a rotation or
reflection times a number. -/
def Similar {n : ℕ} (P : Matrix (Fin n) (Fin n) K) : Prop :=
  ∃ c : K, c ≠ 0 ∧ ∀ a b, ∑ k, P k a * P k b = if a = b then c else 0

/-! ### Helper lemmas -/

theorem rebase_wf {D : Data K d} (h : D.WF) (P : (l : Fin L) → Matrix (Fin (d l)) (Fin (d l)) K) :
    (D.rebase P).WF := by
  refine ⟨h.real, by simpa [Data.rebase] using h.length, ?_⟩
  intro k b hb
  simp only [Data.rebase, List.getElem?_map, Option.map_eq_some_iff] at hb
  obtain ⟨b0, h0, rfl⟩ := hb
  rw [List.length_map]
  exact h.sizes k b0 h0

theorem rebase_flatten (P : (l : Fin L) → Matrix (Fin (d l)) (Fin (d l)) K) (D : Data K d) :
    (D.rebase P).batches.flatten = D.batches.flatten.map (rebase P) := by
  simp [Data.rebase, List.map_flatten]

theorem rebase_ne {D : Data K d} (h : D.batches ≠ [])
    (P : (l : Fin L) → Matrix (Fin (d l)) (Fin (d l)) K) : (D.rebase P).batches ≠ [] := by
  simpa [Data.rebase] using h

theorem similar_iff {n : ℕ} (P : Matrix (Fin n) (Fin n) K) :
    Similar P ↔ ∃ c : K, c ≠ 0 ∧ P.transpose * P = c • (1 : Matrix (Fin n) (Fin n) K) := by
  unfold Similar
  refine exists_congr fun c => and_congr_right fun _ => ?_
  constructor
  · intro h
    ext a b
    rw [Matrix.mul_apply, Matrix.smul_apply, Matrix.one_apply, smul_eq_mul, mul_ite, mul_one,
      mul_zero]
    exact h a b
  · intro h a b
    have := congrFun (congrFun h a) b
    rw [Matrix.mul_apply, Matrix.smul_apply, Matrix.one_apply, smul_eq_mul, mul_ite, mul_one,
      mul_zero] at this
    exact this

theorem similar_det {n : ℕ} {P : Matrix (Fin n) (Fin n) K} (h : Similar P) : P.det ≠ 0 := by
  obtain ⟨c, hc, hP⟩ := (similar_iff P).1 h
  intro h0
  have := congrArg Matrix.det hP
  rw [Matrix.det_mul, h0, mul_zero, Matrix.det_smul, Matrix.det_one, mul_one] at this
  exact pow_ne_zero _ hc this.symm

theorem similar_swap {n : ℕ} {P : Matrix (Fin n) (Fin n) K} {c : K} (hc : c ≠ 0)
    (h : P.transpose * P = c • (1 : Matrix (Fin n) (Fin n) K)) : P * P.transpose = c • 1 := by
  have h1 : (c⁻¹ • P.transpose) * P = 1 := by
    rw [Matrix.smul_mul, h, smul_smul, inv_mul_cancel₀ hc, one_smul]
  have h2 := mul_eq_one_comm.1 h1
  rw [Matrix.mul_smul] at h2
  rw [← h2, smul_smul, mul_inv_cancel₀ hc, one_smul]

theorem meanOuter_rebase (P : (l : Fin L) → Matrix (Fin (d l)) (Fin (d l)) K) (l : Fin L)
    (samples : List (Row K d)) :
    meanOuter l (samples.map (rebase P)) = P l * meanOuter l samples * (P l).transpose := by
  unfold meanOuter
  rw [List.length_map, Matrix.mul_smul, Matrix.smul_mul]
  congr 1
  induction samples with
  | nil => simp
  | cons g gs ih =>
    rw [List.map_cons, List.map_cons, List.map_cons, List.sum_cons, List.sum_cons, ih,
      Matrix.mul_add, Matrix.add_mul]
    congr 1
    rw [Matrix.mul_vecMulVec, Matrix.vecMulVec_mul, Matrix.vecMul_transpose]
    rfl

theorem damped_rebase {δ : K} {P : (l : Fin L) → Matrix (Fin (d l)) (Fin (d l)) K} {l : Fin L}
    (hP : δ = 0 ∨ Similar (P l)) (samples : List (Row K d)) :
    damped δ l (samples.map (rebase P)) = P l * damped δ l samples * (P l).transpose := by
  unfold damped
  rw [meanOuter_rebase, Matrix.mul_add, Matrix.add_mul]
  congr 1
  rcases hP with h | h
  · rw [h]
    simp
  · obtain ⟨c, hc, h⟩ := (similar_iff _).1 h
    rw [Matrix.mul_smul, Matrix.mul_one, Matrix.smul_mul, similar_swap hc h, smul_smul,
      Matrix.trace_mul_comm, ← Matrix.mul_assoc, h, Matrix.smul_mul, Matrix.one_mul,
      Matrix.trace_smul, smul_eq_mul]
    congr 1
    ring

theorem score_rebase {n : ℕ} {P A : Matrix (Fin n) (Fin n) K} (hP : P.det ≠ 0) (g h : Fin n → K) :
    ((P * A * P.transpose)⁻¹).mulVec (P.mulVec g) ⬝ᵥ P.mulVec h = (A⁻¹).mulVec g ⬝ᵥ h := by
  have hu : IsUnit P.det := isUnit_iff_ne_zero.2 hP
  rw [Matrix.mul_inv_rev, Matrix.mul_inv_rev, ← Matrix.mulVec_mulVec, ← Matrix.mulVec_mulVec,
    Matrix.mulVec_mulVec, Matrix.mulVec_mulVec, Matrix.mulVec_mulVec]
  rw [Matrix.dotProduct_mulVec, ← Matrix.mulVec_transpose, Matrix.mulVec_mulVec]
  congr 2
  have ht : IsUnit P.transpose.det := by rw [Matrix.det_transpose]; exact hu
  rw [Matrix.mul_assoc, Matrix.mul_assoc, Matrix.nonsing_inv_mul _ hu, Matrix.mul_one,
    ← Matrix.mul_assoc, Matrix.mul_nonsing_inv _ ht, Matrix.one_mul]

variable [DecidableEq K]

/-! ### C244 -/

/-- **C244 (basis).** Expressing each layer's gradients (of training and test samples alike) in
another basis - rotated, reflected or rescaled; any basis at all if the damping is zero - changes
neither whether caching succeeds nor any score. -/
theorem C244_basis (damping : Option K) {D : Data K d} (hD : D.WF) (hne : D.batches ≠ [])
    {P : (l : Fin L) → Matrix (Fin (d l)) (Fin (d l)) K}
    (hP : ∀ l, (damping = some 0 ∧ (P l).det ≠ 0) ∨ Similar (P l)) :
    ((∃ st, cache .efim damping (St.new K d none) D = (st, .ok ())) ↔
      ∃ st, cache .efim damping (St.new K d none) (D.rebase P) = (st, .ok ())) ∧
    ∀ st st', cache .efim damping (St.new K d none) D = (st, .ok ()) →
      cache .efim damping (St.new K d none) (D.rebase P) = (st', .ok ()) →
      ∀ train train' test : Data K d, test.batches.flatten ≠ [] → ∑ l, d l ≠ 0 →
      ∃ M M', (attribute' .efim damping st train test).2 = .ok M ∧
        (attribute' .efim damping st' train' (test.rebase P)).2 = .ok M' ∧
        M.r = D.batches.flatten.length ∧ M.c = test.batches.flatten.length ∧ M'.r = M.r ∧
        M'.c = M.c ∧ ∀ i j, i < M.r → j < M.c → M'.f i j = M.f i j := by
  have hP' : ∀ l, damping.getD (1 / 100000) = 0 ∨ Similar (P l) := fun l =>
    (hP l).imp (fun h => by rw [h.1]; rfl) id
  have hdet : ∀ l, (P l).det ≠ 0 := fun l => (hP l).elim (fun h => h.2) similar_det
  constructor
  · rw [C60_succeeds damping hD hne, C60_succeeds damping (rebase_wf hD P) (rebase_ne hne P),
      rebase_flatten]
    refine forall_congr' fun l => ?_
    rw [damped_rebase (hP' l), Matrix.det_mul, Matrix.det_mul, Matrix.det_transpose]
    unfold Active
    simp [hdet l]
  · intro st st' hok hok' train train' test ht hd
    obtain ⟨M, h1, h2⟩ := C60_entries .efim damping hD hne hok train test ht hd
    obtain ⟨M', h1', h2'⟩ := C60_entries .efim damping (rebase_wf hD P) (rebase_ne hne P) hok' train'
      (test.rebase P) (by rw [rebase_flatten]; simpa using ht) hd
    rw [rebase_flatten, rebase_flatten, List.map_map] at h2'
    have hr : M.r = D.batches.flatten.length := by rw [h2.r, List.length_map]
    have hc : M.c = test.batches.flatten.length := h2.c
    refine ⟨M, M', h1, h1', hr, hc, by rw [h2'.r, hr, List.length_map],
      by rw [h2'.c, hc, List.length_map], ?_⟩
    intro i j hi hj
    rw [hr] at hi
    rw [hc] at hj
    rw [h2.f i j _ _ (by rw [List.getElem?_map, List.getElem?_eq_getElem hi]; rfl)
        (List.getElem?_eq_getElem hj),
      h2'.f i j _ _ (by rw [List.getElem?_map, List.getElem?_eq_getElem hi]; rfl)
        (by rw [List.getElem?_map, List.getElem?_eq_getElem hj]; rfl)]
    refine Finset.sum_congr rfl fun l _ => ?_
    have := score_rebase (A := damped (damping.getD (1 / 100000)) l D.batches.flatten) (hdet l)
      (D.batches.flatten[i] l) (test.batches.flatten[j] l)
    rw [← damped_rebase (hP' l)] at this
    exact this

/-! ### Concrete cases, and a basis for which it fails -/

/-- Two samples along the two axes. -/
def axes : List (Row ℚ d2) := [row2 1 0, row2 0 1]

/-- The second axis doubled. -/
def stretch : (l : Fin 1) → Matrix (Fin (d2 l)) (Fin (d2 l)) ℚ := fun _ => !![1, 0; 0, 2]

/-- Rotation with cosine 3/5. -/
def turn : (l : Fin 1) → Matrix (Fin (d2 l)) (Fin (d2 l)) ℚ := fun _ => !![3/5, -4/5; 4/5, 3/5]

theorem damped_axes (l : Fin 1) : damped 1 l axes = !![1, 0; 0, 1] := by
  ext a b
  fin_cases a <;> fin_cases b <;>
    simp [damped, meanOuter, axes, row2, Matrix.vecMulVec, Matrix.trace, Fin.sum_univ_two] <;>
    norm_num

theorem damped_stretch (l : Fin 1) :
    damped 1 l (axes.map (rebase stretch)) = !![7/4, 0; 0, 13/4] := by
  ext a b
  fin_cases a <;> fin_cases b <;>
    simp [damped, meanOuter, axes, row2, rebase, stretch, Matrix.vecMulVec, Matrix.trace,
      Fin.sum_univ_two] <;>
    norm_num

/-- **C244 (limit).** With a positive damping another basis can change the scores: with the second
axis doubled the second sample's score on itself grows from 1 to 16/13. -/
theorem C244_stretched : ∃ st st' M M',
    cache .efim (some 1) (St.new ℚ d2 none) (Data.of 2 false axes) = (st, .ok ()) ∧
    cache .efim (some 1) (St.new ℚ d2 none) ((Data.of 2 false axes).rebase stretch) =
      (st', .ok ()) ∧
    (attribute' .efim (some 1) st (Data.of 2 false []) (Data.of 2 false axes)).2 = .ok M ∧
    (attribute' .efim (some 1) st' (Data.of 2 false [])
      ((Data.of 2 false axes).rebase stretch)).2 = .ok M' ∧ M.f 1 1 = 1 ∧ M'.f 1 1 = 16 / 13 := by
  have hw := of_wf (bs := 2) (by decide) false axes
  have hfl : (Data.of 2 false axes).batches.flatten = axes := of_flatten_all (by decide) _
  have hfl' : ((Data.of 2 false axes).rebase stretch).batches.flatten =
      axes.map (rebase stretch) := by rw [rebase_flatten, hfl]
  obtain ⟨st, h0⟩ := (C60_succeeds (some 1) hw (by decide)).2 (fun l _ => by
    rw [hfl]
    change (damped 1 l axes).det ≠ 0
    rw [damped_axes, Matrix.det_fin_two_of]
    norm_num)
  obtain ⟨st', h'⟩ := (C60_succeeds (some 1) (rebase_wf hw stretch) (by decide)).2 (fun l _ => by
    rw [hfl']
    change (damped 1 l (axes.map (rebase stretch))).det ≠ 0
    rw [damped_stretch, Matrix.det_fin_two_of]
    norm_num)
  obtain ⟨M, a1, a2⟩ := C60_entries .efim (some 1) hw (by decide) h0 (Data.of 2 false [])
    (Data.of 2 false axes) (by decide) (by decide)
  obtain ⟨M', b1, b2⟩ := C60_entries .efim (some 1) (rebase_wf hw stretch) (by decide) h'
    (Data.of 2 false []) ((Data.of 2 false axes).rebase stretch) (by decide) (by decide)
  rw [hfl] at a2
  rw [hfl'] at b2
  refine ⟨st, st', M, M', h0, h', a1, b1, ?_, ?_⟩
  · rw [a2.f 1 1 _ _ rfl rfl]
    have hi : (damped 1 (0 : Fin 1) axes)⁻¹ = !![1, 0; 0, 1] := by
      apply Matrix.inv_eq_left_inv
      rw [damped_axes, Matrix.mul_fin_two, Matrix.one_fin_two]
      norm_num
    simp [preconditioned, hi, Matrix.mulVec, dotProduct, Fin.sum_univ_two, row2]
  · rw [b2.f 1 1 _ _ rfl rfl]
    have hi : (damped 1 (0 : Fin 1) (axes.map (rebase stretch)))⁻¹ = !![4/7, 0; 0, 4/13] := by
      apply Matrix.inv_eq_left_inv
      rw [damped_stretch, Matrix.mul_fin_two, Matrix.one_fin_two]
      norm_num
    simp [preconditioned, hi, Matrix.mulVec, dotProduct, Fin.sum_univ_two, row2, rebase, stretch]
    norm_num

theorem turn_similar (l : Fin 1) : Similar (turn l) := by
  refine ⟨1, one_ne_zero, ?_⟩
  intro a b
  fin_cases a <;> fin_cases b <;> simp [turn, Fin.sum_univ_two] <;> norm_num

/-- The stretched basis meets it without damping. -/
example (l : Fin 1) : (stretch l).det ≠ 0 := by
  unfold stretch
  rw [Matrix.det_fin_two_of]
  norm_num

/-- The rotated samples: caching succeeds and the score of the first sample on the second is the
same. -/
example : ∃ st st' M M',
    cache .efim (some 1) (St.new ℚ d2 none) (Data.of 2 false axes) = (st, .ok ()) ∧
    cache .efim (some 1) (St.new ℚ d2 none) ((Data.of 2 false axes).rebase turn) = (st', .ok ()) ∧
    (attribute' .efim (some 1) st (Data.of 2 false []) (Data.of 2 false axes)).2 = .ok M ∧
    (attribute' .efim (some 1) st' (Data.of 2 false [])
      ((Data.of 2 false axes).rebase turn)).2 = .ok M' ∧ M'.f 0 1 = M.f 0 1 := by
  have h := C244_basis (some 1) (of_wf (bs := 2) (by decide) false axes) (by decide) (P := turn)
    (fun l => Or.inr (turn_similar l))
  obtain ⟨st, _, _, _, h0, _⟩ := C244_stretched
  obtain ⟨st', h'⟩ := h.1.1 ⟨st, h0⟩
  obtain ⟨M, M', a1, a2, a3, a4, _, _, a7⟩ := h.2 st st' h0 h' (Data.of 2 false [])
    (Data.of 2 false []) (Data.of 2 false axes) (by decide) (by decide)
  have hr : M.r = 2 := by rw [a3]; rfl
  have hc : M.c = 2 := by rw [a4]; rfl
  exact ⟨st, st', M, M', h0, h', a1, a2, a7 0 1 (by omega) (by omega)⟩

end Verif.BlockIF
