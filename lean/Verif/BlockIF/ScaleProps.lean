import Mathlib.Tactic.Linarith
import Verif.BlockIF.SelfProps

/-!
# Units and size of block-projected influence scores (property C243)
-/

namespace Verif.BlockIF

open Verif

variable {K : Type} [Field K] [DecidableEq K] {L : ℕ} {d : Fin L → ℕ}

/-! ### Specification -/

/-- Every layer's gradient multiplied by a number of its own. -/
def rescale (s : Fin L → K) (g : Row K d) : Row K d := fun l k => s l * g l k

/-- A loader over the same samples, whose gradients are multiplied layer by layer. -/
def Data.rescale (s : Fin L → K) (D : Data K d) : Data K d :=
  ⟨D.spec, D.batches.map (List.map (Verif.BlockIF.rescale s))⟩

/-! ### Helper lemmas -/

omit [DecidableEq K] in
theorem rescale_wf {D : Data K d} (h : D.WF) (s : Fin L → K) : (D.rescale s).WF := by
  refine ⟨h.real, by simpa [Data.rescale] using h.length, ?_⟩
  intro k b hb
  simp only [Data.rescale, List.getElem?_map, Option.map_eq_some_iff] at hb
  obtain ⟨b0, h0, rfl⟩ := hb
  rw [List.length_map]
  exact h.sizes k b0 h0

omit [DecidableEq K] in
theorem rescale_flatten (s : Fin L → K) (D : Data K d) :
    (D.rescale s).batches.flatten = D.batches.flatten.map (rescale s) := by
  simp [Data.rescale, List.map_flatten]

omit [DecidableEq K] in
theorem meanOuter_rescale (s : Fin L → K) (l : Fin L) (samples : List (Row K d)) :
    meanOuter l (samples.map (rescale s)) = (s l ^ 2) • meanOuter l samples := by
  unfold meanOuter
  rw [List.length_map, smul_comm]
  congr 1
  induction samples with
  | nil => simp
  | cons g gs ih =>
    rw [List.map_cons, List.map_cons, List.map_cons, List.sum_cons, List.sum_cons, ih, smul_add]
    congr 1
    ext a b
    simp only [rescale, Matrix.vecMulVec_apply, Matrix.smul_apply, smul_eq_mul]
    ring

omit [DecidableEq K] in
theorem damped_rescale (δ : K) (s : Fin L → K) (l : Fin L) (samples : List (Row K d)) :
    damped δ l (samples.map (rescale s)) = (s l ^ 2) • damped δ l samples := by
  unfold damped
  rw [meanOuter_rescale, Matrix.trace_smul, smul_add, smul_smul, smul_eq_mul]
  congr 2
  ring

omit [DecidableEq K] in
theorem det_rescale (δ : K) {s : Fin L → K} (hs : ∀ l, s l ≠ 0) (l : Fin L)
    (samples : List (Row K d)) :
    (damped δ l (samples.map (rescale s))).det ≠ 0 ↔ (damped δ l samples).det ≠ 0 := by
  rw [damped_rescale, Matrix.det_smul]
  have : (s l ^ 2) ^ Fintype.card (Fin (d l)) ≠ 0 := pow_ne_zero _ (pow_ne_zero _ (hs l))
  exact ⟨fun h => (mul_ne_zero_iff.1 h).2, fun h => mul_ne_zero this h⟩

omit [DecidableEq K] in
theorem preconditioned_rescale (δ : K) {s : Fin L → K} (hs : ∀ l, s l ≠ 0)
    (samples : List (Row K d)) (hdet : ∀ l, (damped δ l samples).det ≠ 0) (g : Row K d)
    (l : Fin L) (k : Fin (d l)) :
    preconditioned .efim δ (samples.map (rescale s)) (rescale s g) l k =
      (s l)⁻¹ * preconditioned .efim δ samples g l k := by
  change ((damped δ l (samples.map (rescale s)))⁻¹).mulVec (rescale s g l) k = _
  have hinv : (damped δ l (samples.map (rescale s)))⁻¹ =
      (s l ^ 2)⁻¹ • (damped δ l samples)⁻¹ := by
    apply Matrix.inv_eq_left_inv
    rw [damped_rescale, Matrix.smul_mul, Matrix.mul_smul, smul_smul,
      inv_mul_cancel₀ (pow_ne_zero _ (hs l)), one_smul,
      Matrix.nonsing_inv_mul _ (isUnit_iff_ne_zero.2 (hdet l))]
  have hg : rescale s g l = s l • g l := rfl
  rw [hinv, hg, Matrix.smul_mulVec, Matrix.mulVec_smul, smul_smul]
  change ((s l ^ 2)⁻¹ * s l) * _ = (s l)⁻¹ * ((damped δ l samples)⁻¹).mulVec (g l) k
  have := hs l
  congr 1
  field_simp

omit [DecidableEq K] in
theorem det_all {δ : K} {samples : List (Row K d)} (hne : samples ≠ [])
    (h : ∀ l, Active l samples → (damped δ l samples).det ≠ 0) (l : Fin L) :
    (damped δ l samples).det ≠ 0 := by
  by_cases h0 : d l = 0
  · have : IsEmpty (Fin (d l)) := by rw [h0]; infer_instance
    rw [Matrix.det_isEmpty]
    exact one_ne_zero
  · exact h l ⟨h0, hne⟩

omit [DecidableEq K] in
theorem rescale_ne {D : Data K d} (h : D.batches ≠ []) (s : Fin L → K) :
    (D.rescale s).batches ≠ [] := by simpa [Data.rescale] using h

/-- Scores after rescaling the two sides, for the empirical Fisher matrix. -/
theorem entries_rescale {damping : Option K} {D : Data K d} (hD : D.WF) (hne : D.batches ≠ [])
    {s t : Fin L → K} (hs : ∀ l, s l ≠ 0) {st st' : St K d}
    (hok : cache .efim damping (St.new K d none) D = (st, .ok ()))
    (hok' : cache .efim damping (St.new K d none) (D.rescale s) = (st', .ok ()))
    (train train' test : Data K d) (ht : test.batches.flatten ≠ []) (hd : ∑ l, d l ≠ 0) :
    ∃ M M', (attribute' .efim damping st train test).2 = .ok M ∧
      (attribute' .efim damping st' train' (test.rescale t)).2 = .ok M' ∧
      M.r = D.batches.flatten.length ∧ M.c = test.batches.flatten.length ∧ M'.r = M.r ∧
      M'.c = M.c ∧
      ∀ i j, i < M.r → j < M.c → ∃ p : Fin L → K, M.f i j = ∑ l, p l ∧
        M'.f i j = ∑ l, (t l / s l) * p l := by
  obtain ⟨M, h1, h2⟩ := C60_entries .efim damping hD hne hok train test ht hd
  obtain ⟨M', h1', h2'⟩ := C60_entries .efim damping (rescale_wf hD s) (rescale_ne hne s) hok' train'
    (test.rescale t) (by rw [rescale_flatten]; simpa using ht) hd
  rw [rescale_flatten, rescale_flatten, List.map_map] at h2'
  have hr : M.r = D.batches.flatten.length := by rw [h2.r, List.length_map]
  have hc : M.c = test.batches.flatten.length := h2.c
  refine ⟨M, M', h1, h1', hr, hc, by rw [h2'.r, hr, List.length_map],
    by rw [h2'.c, hc, List.length_map], ?_⟩
  intro i j hi hj
  rw [hr] at hi
  rw [hc] at hj
  have hdet := det_all (List.ne_nil_of_length_pos (Nat.zero_lt_of_lt hi))
    ((C60_succeeds damping hD hne).1 ⟨st, hok⟩)
  have e1 := h2.f i j _ _ (by rw [List.getElem?_map, List.getElem?_eq_getElem hi]; rfl)
    (List.getElem?_eq_getElem hj)
  have e2 := h2'.f i j _ _ (by rw [List.getElem?_map, List.getElem?_eq_getElem hi]; rfl)
    (by rw [List.getElem?_map, List.getElem?_eq_getElem hj]; rfl)
  refine ⟨_, e1, ?_⟩
  rw [e2]
  refine Finset.sum_congr rfl fun l _ => ?_
  rw [Finset.mul_sum]
  refine Finset.sum_congr rfl fun k _ => ?_
  rw [Function.comp, preconditioned_rescale _ hs _ hdet]
  simp only [rescale]
  ring

/-! ### C243 -/

/-- **C243 (layers).** Multiplying every layer's gradients, of training and test samples alike, by a
non-zero number of its own changes neither whether caching succeeds nor any score. -/
theorem C243_layers (damping : Option K) {D : Data K d} (hD : D.WF) (hne : D.batches ≠ [])
    {s : Fin L → K} (hs : ∀ l, s l ≠ 0) :
    ((∃ st, cache .efim damping (St.new K d none) D = (st, .ok ())) ↔
      ∃ st, cache .efim damping (St.new K d none) (D.rescale s) = (st, .ok ())) ∧
    ∀ st st', cache .efim damping (St.new K d none) D = (st, .ok ()) →
      cache .efim damping (St.new K d none) (D.rescale s) = (st', .ok ()) →
      ∀ train train' test : Data K d, test.batches.flatten ≠ [] → ∑ l, d l ≠ 0 →
      ∃ M M', (attribute' .efim damping st train test).2 = .ok M ∧
        (attribute' .efim damping st' train' (test.rescale s)).2 = .ok M' ∧
        M.r = D.batches.flatten.length ∧ M.c = test.batches.flatten.length ∧ M'.r = M.r ∧
        M'.c = M.c ∧ ∀ i j, i < M.r → j < M.c → M'.f i j = M.f i j := by
  constructor
  · rw [C60_succeeds damping hD hne, C60_succeeds damping (rescale_wf hD s) (rescale_ne hne s),
      rescale_flatten]
    refine forall_congr' fun l => ?_
    rw [det_rescale _ hs]
    unfold Active
    simp
  · intro st st' hok hok' train train' test ht hd
    obtain ⟨M, M', h1, h2, h3, h4, h5, h6, h7⟩ :=
      entries_rescale (t := s) hD hne hs hok hok' train train' test ht hd
    refine ⟨M, M', h1, h2, h3, h4, h5, h6, fun i j hi hj => ?_⟩
    obtain ⟨p, hp, hp'⟩ := h7 i j hi hj
    rw [hp, hp']
    exact Finset.sum_congr rfl fun l _ => by rw [div_self (hs l), one_mul]

/-- **C243 (two losses).** If the training gradients are multiplied by `a ≠ 0` and the test gradients
by `b`, the scores are multiplied by `b / a` with the empirical Fisher matrix. -/
theorem C243_fisher (damping : Option K) {D : Data K d} (hD : D.WF) (hne : D.batches ≠ [])
    {a : K} (ha : a ≠ 0) (b : K) {st st' : St K d}
    (hok : cache .efim damping (St.new K d none) D = (st, .ok ()))
    (hok' : cache .efim damping (St.new K d none) (D.rescale fun _ => a) = (st', .ok ()))
    (train train' test : Data K d) (ht : test.batches.flatten ≠ []) (hd : ∑ l, d l ≠ 0) :
    ∃ M M', (attribute' .efim damping st train test).2 = .ok M ∧
      (attribute' .efim damping st' train' (test.rescale fun _ => b)).2 = .ok M' ∧
      M.r = D.batches.flatten.length ∧ M.c = test.batches.flatten.length ∧ M'.r = M.r ∧
      M'.c = M.c ∧ ∀ i j, i < M.r → j < M.c → M'.f i j = b / a * M.f i j := by
  obtain ⟨M, M', h1, h2, h3, h4, h5, h6, h7⟩ :=
    entries_rescale (t := fun _ => b) hD hne (fun _ => ha) hok hok' train train' test ht hd
  refine ⟨M, M', h1, h2, h3, h4, h5, h6, fun i j hi hj => ?_⟩
  obtain ⟨p, hp, hp'⟩ := h7 i j hi hj
  rw [hp, hp', Finset.mul_sum]

/-- **C243 (Identity).** With the identity matrix they are multiplied by `a * b`. -/
theorem C243_identity (damping : Option K) {D : Data K d} (hD : D.WF) (hne : D.batches ≠ [])
    (a b : K) {st st' : St K d}
    (hok : cache .identity damping (St.new K d none) D = (st, .ok ()))
    (hok' : cache .identity damping (St.new K d none) (D.rescale fun _ => a) = (st', .ok ()))
    (train train' test : Data K d) (ht : test.batches.flatten ≠ []) (hd : ∑ l, d l ≠ 0) :
    ∃ M M', (attribute' .identity damping st train test).2 = .ok M ∧
      (attribute' .identity damping st' train' (test.rescale fun _ => b)).2 = .ok M' ∧
      M.r = D.batches.flatten.length ∧ M.c = test.batches.flatten.length ∧ M'.r = M.r ∧
      M'.c = M.c ∧ ∀ i j, i < M.r → j < M.c → M'.f i j = a * b * M.f i j := by
  obtain ⟨M, h1, h2⟩ := C60_entries .identity damping hD hne hok train test ht hd
  obtain ⟨M', h1', h2'⟩ := C60_entries .identity damping (rescale_wf hD _) (rescale_ne hne _) hok'
    train' (test.rescale fun _ => b) (by rw [rescale_flatten]; simpa using ht) hd
  rw [rescale_flatten, rescale_flatten, List.map_map] at h2'
  have hr : M.r = D.batches.flatten.length := by rw [h2.r, List.length_map]
  have hc : M.c = test.batches.flatten.length := h2.c
  refine ⟨M, M', h1, h1', hr, hc, by rw [h2'.r, hr, List.length_map],
    by rw [h2'.c, hc, List.length_map], ?_⟩
  intro i j hi hj
  rw [hr] at hi
  rw [hc] at hj
  rw [h2.f i j _ _ (by rw [List.getElem?_map, List.getElem?_eq_getElem hi]; rfl)
      (List.getElem?_eq_getElem hj),
    h2'.f i j _ _ (by rw [List.getElem?_map, List.getElem?_eq_getElem hi]; rfl)
      (by rw [List.getElem?_map, List.getElem?_eq_getElem hj]; rfl), Finset.mul_sum]
  refine Finset.sum_congr rfl fun l _ => ?_
  rw [Finset.mul_sum]
  refine Finset.sum_congr rfl fun k _ => ?_
  simp only [Function.comp, preconditioned, rescale]
  ring

section Order
variable {F : Type} [Field F] [LinearOrder F] [IsStrictOrderedRing F]

theorem trace_meanOuter_nonneg (l : Fin L) (samples : List (Row F d)) :
    0 ≤ (meanOuter l samples).trace := by
  rw [trace_meanOuter]
  refine mul_nonneg (inv_nonneg.2 (Nat.cast_nonneg _)) (List.sum_nonneg ?_)
  intro x hx
  obtain ⟨g', _, rfl⟩ := List.mem_map.1 hx
  exact dot_self_nonneg _

/-- The quadratic form of the damped matrix dominates that of each sample. -/
theorem quad_damped {δ : F} (hδ : 0 ≤ δ) (l : Fin L) {samples : List (Row F d)} {g : Row F d}
    (hg : g ∈ samples) (v : Fin (d l) → F) :
    (samples.length : F)⁻¹ * (g l ⬝ᵥ v) ^ 2 ≤ v ⬝ᵥ (damped δ l samples).mulVec v := by
  unfold damped
  rw [Matrix.add_mulVec, dotProduct_add, Matrix.smul_mulVec, Matrix.one_mulVec, dotProduct_smul,
    smul_eq_mul, quad_meanOuter]
  have h1 : (g l ⬝ᵥ v) ^ 2 ≤ (samples.map fun g => (g l ⬝ᵥ v) ^ 2).sum :=
    List.single_le_sum (fun x hx => by
      obtain ⟨g', _, rfl⟩ := List.mem_map.1 hx
      exact sq_nonneg _) _ (List.mem_map.2 ⟨g, hg, rfl⟩)
  have h2 := mul_le_mul_of_nonneg_left h1 (inv_nonneg.2 (Nat.cast_nonneg (α := F) samples.length))
  have h3 : 0 ≤ δ * (meanOuter l samples).trace / (d l : F) * (v ⬝ᵥ v) :=
    mul_nonneg (div_nonneg (mul_nonneg hδ (trace_meanOuter_nonneg l samples)) (Nat.cast_nonneg _))
      (dot_self_nonneg v)
  linarith

/-- A sample's contribution of one layer to its own score lies between 0 and the sample count. -/
theorem layer_self {δ : F} (hδ : 0 ≤ δ) (l : Fin L) {samples : List (Row F d)} {g : Row F d}
    (hg : g ∈ samples) (hdet : (damped δ l samples).det ≠ 0) :
    0 ≤ ((damped δ l samples)⁻¹).mulVec (g l) ⬝ᵥ g l ∧
      ((damped δ l samples)⁻¹).mulVec (g l) ⬝ᵥ g l ≤ samples.length := by
  have hq := quad_damped hδ l hg (((damped δ l samples)⁻¹).mulVec (g l))
  rw [Matrix.mulVec_mulVec, Matrix.mul_nonsing_inv _ (isUnit_iff_ne_zero.2 hdet),
    Matrix.one_mulVec, dotProduct_comm (g l)] at hq
  generalize ((damped δ l samples)⁻¹).mulVec (g l) ⬝ᵥ g l = q at hq ⊢
  have hn : (0 : F) < samples.length := by exact_mod_cast List.length_pos_of_mem hg
  have h0 : 0 ≤ q := le_trans (mul_nonneg (inv_nonneg.2 hn.le) (sq_nonneg q)) hq
  refine ⟨h0, ?_⟩
  rcases h0.eq_or_lt with h | h
  · rw [← h]; exact hn.le
  · rw [inv_mul_le_iff₀ hn, sq] at hq
    exact le_of_mul_le_mul_right hq h

/-- **C243 (bound).** With the empirical Fisher matrix and a damping that is not negative, the score
of a training sample on itself, or on a test sample with the same gradient, is at least 0 and at most
the number of training samples times the number of layers, however large its gradient is. -/
theorem C243_bound {damping : Option F} (hδ : 0 ≤ damping.getD (1 / 100000)) {D : Data F d}
    (hD : D.WF) (hne : D.batches ≠ []) {st : St F d}
    (hok : cache .efim damping (St.new F d none) D = (st, .ok ()))
    (train test : Data F d) (ht : test.batches.flatten ≠ []) (hd : ∑ l, d l ≠ 0) :
    ∃ M, (attribute' .efim damping st train test).2 = .ok M ∧ M.r = D.batches.flatten.length ∧
      M.c = test.batches.flatten.length ∧
      ∀ (i j : ℕ) (g : Row F d), D.batches.flatten[i]? = some g →
        test.batches.flatten[j]? = some g →
        0 ≤ M.f i j ∧ M.f i j ≤ (L : F) * (D.batches.flatten.length : F) := by
  obtain ⟨M, h1, h2⟩ := C60_entries .efim damping hD hne hok train test ht hd
  refine ⟨M, h1, by rw [h2.r, List.length_map], h2.c, ?_⟩
  intro i j g hi hj
  have hg : g ∈ D.batches.flatten := List.mem_of_getElem? hi
  have hdet := det_all (List.ne_nil_of_mem hg) ((C60_succeeds damping hD hne).1 ⟨st, hok⟩)
  rw [h2.f i j _ _ (by rw [List.getElem?_map, hi]; rfl) hj]
  have hl := fun l => layer_self hδ l hg (hdet l)
  constructor
  · exact Finset.sum_nonneg fun l _ => (hl l).1
  · refine (Finset.sum_le_sum fun l _ => (hl l).2).trans ?_
    rw [Finset.sum_const, Finset.card_univ, Fintype.card_fin, nsmul_eq_mul]

/-- One layer's contribution to the score of a training sample on another one. -/
theorem layer_pair {δ : F} (hδ : 0 ≤ δ) (l : Fin L) {samples : List (Row F d)} {g h : Row F d}
    (hg : g ∈ samples) (hh : h ∈ samples) (hdet : (damped δ l samples).det ≠ 0) :
    |((damped δ l samples)⁻¹).mulVec (g l) ⬝ᵥ h l| ≤ samples.length := by
  have hn : (0 : F) < samples.length := by exact_mod_cast List.length_pos_of_mem hg
  have hq := quad_damped hδ l hh (((damped δ l samples)⁻¹).mulVec (g l))
  rw [Matrix.mulVec_mulVec, Matrix.mul_nonsing_inv _ (isUnit_iff_ne_zero.2 hdet),
    Matrix.one_mulVec, dotProduct_comm (h l), inv_mul_le_iff₀ hn] at hq
  refine abs_le_of_sq_le_sq ?_ hn.le
  have := mul_le_mul_of_nonneg_left (layer_self hδ l hg hdet).2 hn.le
  rw [sq (samples.length : F)]
  exact hq.trans this

/-- **C243 (pairs).** Likewise the score of a training sample on a test sample that has the gradient
of some other training sample is at most that in absolute value. -/
theorem C243_pairs {damping : Option F} (hδ : 0 ≤ damping.getD (1 / 100000)) {D : Data F d}
    (hD : D.WF) (hne : D.batches ≠ []) {st : St F d}
    (hok : cache .efim damping (St.new F d none) D = (st, .ok ()))
    (train test : Data F d) (ht : test.batches.flatten ≠ []) (hd : ∑ l, d l ≠ 0) :
    ∃ M, (attribute' .efim damping st train test).2 = .ok M ∧ M.r = D.batches.flatten.length ∧
      M.c = test.batches.flatten.length ∧
      ∀ (i j : ℕ) (h : Row F d), i < M.r → h ∈ D.batches.flatten →
        test.batches.flatten[j]? = some h →
        |M.f i j| ≤ (L : F) * (D.batches.flatten.length : F) := by
  obtain ⟨M, h1, h2⟩ := C60_entries .efim damping hD hne hok train test ht hd
  have hr : M.r = D.batches.flatten.length := by rw [h2.r, List.length_map]
  refine ⟨M, h1, hr, h2.c, ?_⟩
  intro i j h hi hh hj
  rw [hr] at hi
  have hdet := det_all (List.ne_nil_of_mem hh) ((C60_succeeds damping hD hne).1 ⟨st, hok⟩)
  rw [h2.f i j _ _ (by rw [List.getElem?_map, List.getElem?_eq_getElem hi]; rfl) hj]
  refine (Finset.abs_sum_le_sum_abs _ _).trans
    ((Finset.sum_le_sum fun l _ => layer_pair hδ l (List.getElem_mem hi) hh (hdet l)).trans ?_)
  rw [Finset.sum_const, Finset.card_univ, Fintype.card_fin, nsmul_eq_mul]

theorem inv_diag_nonneg {δ : F} (hδ : 0 ≤ δ) (l : Fin L) {samples : List (Row F d)} {g : Row F d}
    (hg : g ∈ samples) (hdet : (damped δ l samples).det ≠ 0) :
    0 ≤ ((damped δ l samples)⁻¹).trace := by
  refine Finset.sum_nonneg fun k _ => ?_
  have hq := quad_damped hδ l hg (((damped δ l samples)⁻¹).mulVec (Pi.single k 1))
  rw [Matrix.mulVec_mulVec, Matrix.mul_nonsing_inv _ (isUnit_iff_ne_zero.2 hdet),
    Matrix.one_mulVec, dotProduct_single, mul_one, Matrix.mulVec_single_one] at hq
  exact le_trans (mul_nonneg (inv_nonneg.2 (Nat.cast_nonneg _)) (sq_nonneg _)) hq

omit [LinearOrder F] [IsStrictOrderedRing F] in
theorem sum_self (l : Fin L) (A : Matrix (Fin (d l)) (Fin (d l)) F) (samples : List (Row F d)) :
    (samples.map fun g => A.mulVec (g l) ⬝ᵥ g l).sum =
      (A * (samples.map fun g => Matrix.vecMulVec (g l) (g l)).sum).trace := by
  induction samples with
  | nil => simp
  | cons g gs ih =>
    simp only [List.map_cons, List.sum_cons, ih, Matrix.mul_add, Matrix.trace_add,
      Matrix.mul_vecMulVec, Matrix.trace_vecMulVec]

omit [LinearOrder F] [IsStrictOrderedRing F] in
theorem sum_range_map {R : Type} (S : List R) (f : ℕ → F) (h : R → F)
    (hf : ∀ i g, S[i]? = some g → f i = h g) :
    ∑ i ∈ Finset.range S.length, f i = (S.map h).sum := by
  induction S generalizing f with
  | nil => simp
  | cons g S ih =>
    rw [List.length_cons, Finset.sum_range_succ', ih (fun i => f (i + 1))
      (fun i r hr => hf (i + 1) r hr), hf 0 g rfl, List.map_cons, List.sum_cons, add_comm]

omit [LinearOrder F] [IsStrictOrderedRing F] in
theorem sum_map_sum {R : Type} (S : List R) (h : Fin L → R → F) :
    (S.map fun g => ∑ l, h l g).sum = ∑ l, (S.map (h l)).sum := by
  induction S with
  | nil => simp
  | cons g S ih => simp only [List.map_cons, List.sum_cons, ih, Finset.sum_add_distrib]

/-- The samples' contributions of one layer to their own scores add up to at most the sample count
times the dimension of the layer. -/
theorem layer_total {δ : F} (hδ : 0 ≤ δ) (l : Fin L) {samples : List (Row F d)}
    (hne : samples ≠ []) (hdet : (damped δ l samples).det ≠ 0) :
    (samples.map fun g => ((damped δ l samples)⁻¹).mulVec (g l) ⬝ᵥ g l).sum ≤
      samples.length * (d l : F) := by
  obtain ⟨g, hg⟩ := List.exists_mem_of_ne_nil _ hne
  have hn : (0 : F) < samples.length := by exact_mod_cast List.length_pos_of_mem hg
  have hS : (samples.map fun g => Matrix.vecMulVec (g l) (g l)).sum =
      (samples.length : F) • (damped δ l samples -
        (δ * (meanOuter l samples).trace / (d l : F)) • (1 : Matrix _ _ F)) := by
    unfold damped
    rw [add_sub_cancel_right]
    unfold meanOuter
    rw [smul_smul, mul_inv_cancel₀ hn.ne', one_smul]
  rw [sum_self, hS, Matrix.mul_smul, Matrix.mul_sub,
    Matrix.nonsing_inv_mul _ (isUnit_iff_ne_zero.2 hdet), Matrix.mul_smul, Matrix.mul_one,
    Matrix.trace_smul, Matrix.trace_sub, Matrix.trace_one, Matrix.trace_smul, Fintype.card_fin,
    smul_eq_mul, smul_eq_mul]
  refine mul_le_mul_of_nonneg_left ?_ hn.le
  have := mul_nonneg (div_nonneg (mul_nonneg hδ (trace_meanOuter_nonneg l samples))
    (Nat.cast_nonneg (α := F) (d l))) (inv_diag_nonneg hδ l hg hdet)
  linarith

/-- **C243 (total).** The training samples' scores on themselves add up to at most the number of
training samples times the total dimension of the compressed gradients. -/
theorem C243_total {damping : Option F} (hδ : 0 ≤ damping.getD (1 / 100000)) {D : Data F d}
    (hD : D.WF) (hne : D.batches ≠ []) {st : St F d}
    (hok : cache .efim damping (St.new F d none) D = (st, .ok ()))
    (train test : Data F d) (ht : test.batches.flatten = D.batches.flatten)
    (hn : D.batches.flatten ≠ []) (hd : ∑ l, d l ≠ 0) :
    ∃ M, (attribute' .efim damping st train test).2 = .ok M ∧
      M.r = D.batches.flatten.length ∧ M.c = M.r ∧
      ∑ i ∈ Finset.range M.r, M.f i i ≤ (M.r : F) * ((∑ l, d l : ℕ) : F) := by
  obtain ⟨M, h1, h2⟩ := C60_entries .efim damping hD hne hok train test (by rw [ht]; exact hn) hd
  have hr : M.r = D.batches.flatten.length := by rw [h2.r, List.length_map]
  refine ⟨M, h1, hr, by rw [h2.c, ht, hr], ?_⟩
  have hdet := det_all hn ((C60_succeeds damping hD hne).1 ⟨st, hok⟩)
  rw [ht] at h2
  generalize D.batches.flatten = S at *
  rw [hr]
  have hf : ∑ i ∈ Finset.range S.length, M.f i i =
      (S.map fun g => ∑ l, ((damped (damping.getD (1 / 100000)) l S)⁻¹).mulVec (g l) ⬝ᵥ g l).sum := by
    refine sum_range_map S _ _ fun i g hi => ?_
    exact h2.f i i _ _ (by rw [List.getElem?_map, hi]; rfl) hi
  rw [hf, sum_map_sum]
  refine (Finset.sum_le_sum fun l _ => layer_total hδ l hn (hdet l)).trans ?_
  rw [← Finset.mul_sum, Nat.cast_sum]

/-- **C243 (self).** The same bounds for the self-influence scores after caching into a fresh
directory. -/
theorem C243_self {damping : Option F} (hδ : 0 ≤ damping.getD (1 / 100000)) {D : Data F d}
    (hD : D.WF) (hne : D.batches ≠ []) {st : St F d}
    (hok : cache .efim damping (St.new F d none) D = (st, .ok ())) :
    ∃ S, (selfAttribution .efim st).2 = .ok (D.batches.flatten.length, S) ∧
      (∀ i, i < D.batches.flatten.length →
        0 ≤ S i ∧ S i ≤ (L : F) * (D.batches.flatten.length : F)) ∧
      ∑ i ∈ Finset.range D.batches.flatten.length, S i ≤
        (D.batches.flatten.length : F) * ((∑ l, d l : ℕ) : F) := by
  have hist : Hist damping D.batches st := by
    have := Hist.cache (Hist.start (damping := damping)) hD hne
      (fun hl => by rw [List.length_eq_zero_iff.1 hl]) hok
    rwa [List.drop_nil, List.append_nil] at this
  obtain ⟨S, h1, h2⟩ := C93_fisher hist hne
  have hdet := (C60_succeeds damping hD hne).1 ⟨st, hok⟩
  have hS : ∀ i a, D.batches.flatten[i]? = some a → S i = ∑ l,
      ((damped (damping.getD (1 / 100000)) l D.batches.flatten)⁻¹).mulVec (a l) ⬝ᵥ a l := by
    intro i a ha
    rw [h2 i a ha]
    exact Finset.sum_congr rfl fun l _ => Finset.sum_congr rfl fun k _ => mul_comm _ _
  refine ⟨S, h1, ?_, ?_⟩
  · intro i hi
    have hg := List.getElem_mem hi
    have hl := fun l => layer_self hδ l hg (det_all (List.ne_nil_of_mem hg) hdet l)
    rw [hS i _ (List.getElem?_eq_getElem hi)]
    refine ⟨Finset.sum_nonneg fun l _ => (hl l).1, (Finset.sum_le_sum fun l _ => (hl l).2).trans ?_⟩
    rw [Finset.sum_const, Finset.card_univ, Fintype.card_fin, nsmul_eq_mul]
  · rw [sum_range_map _ S _ hS, sum_map_sum]
    by_cases hn : D.batches.flatten = []
    · rw [hn]
      simp
    · refine (Finset.sum_le_sum fun l _ => layer_total hδ l hn (det_all hn hdet l)).trans ?_
      rw [← Finset.mul_sum, Nat.cast_sum]

end Order

/-! ### Concrete cases -/

/-- Samples 1, 2, 3 in one layer of dimension one, cached in batches of two with damping 1/2. -/
theorem ex_cached (c : ℚ) (hc : c ≠ 0) : ∃ st, cache .efim (some (1 / 2))
    (St.new ℚ (fun _ : Fin 1 => 1) none)
    ((Data.of 2 false [one 1, one 2, one 3]).rescale fun _ => c) = (st, .ok ()) := by
  rw [← (C243_layers (some (1 / 2)) (of_wf (by decide) false [one 1, one 2, one 3]) (by decide)
    (s := fun _ => c) (fun _ => hc)).1,
    C60_succeeds (some (1 / 2)) (of_wf (by decide) false [one 1, one 2, one 3]) (by decide)]
  intro l _
  refine C56_exists (by norm_num) l ⟨one 1, ?_, fun h => ?_⟩
  · rw [of_flatten_all (by decide)]
    simp
  · have := congrFun h 0
    simp [one] at this

/-- Gradients a thousand times as large: the same scores. -/
example : ∃ st st' M M', cache .efim (some (1 / 2)) (St.new ℚ (fun _ : Fin 1 => 1) none)
      (Data.of 2 false [one 1, one 2, one 3]) = (st, .ok ()) ∧
    cache .efim (some (1 / 2)) (St.new ℚ (fun _ : Fin 1 => 1) none)
      ((Data.of 2 false [one 1, one 2, one 3]).rescale fun _ => 1000) = (st', .ok ()) ∧
    (attribute' .efim (some (1 / 2)) st (Data.of 2 false []) (Data.of 2 false [one 10])).2 = .ok M ∧
    (attribute' .efim (some (1 / 2)) st' (Data.of 2 false [])
      ((Data.of 2 false [one 10]).rescale fun _ => 1000)).2 = .ok M' ∧ M.r = 3 ∧
    M'.f 1 0 = M.f 1 0 := by
  have h := C243_layers (some (1 / 2)) (of_wf (bs := 2) (by decide) false [one 1, one 2, one 3])
    (by decide) (s := fun _ => (1000 : ℚ)) (fun _ => by norm_num)
  obtain ⟨st', h'⟩ := ex_cached 1000 (by norm_num)
  obtain ⟨st, h0⟩ := h.1.2 ⟨st', h'⟩
  obtain ⟨M, M', a1, a2, a3, a4, a5, a6, a7⟩ := h.2 st st' h0 h' (Data.of 2 false [])
    (Data.of 2 false []) (Data.of 2 false [one 10]) (by decide) (by decide)
  have hr : M.r = 3 := by rw [a3]; rfl
  have hc : M.c = 1 := by rw [a4]; rfl
  exact ⟨st, st', M, M', h0, h', a1, a2, hr, a7 1 0 (by omega) (by omega)⟩

/-- Sample 3 on itself: at most 3, the number of samples. -/
example : ∃ st M, cache .efim (some (1 / 2)) (St.new ℚ (fun _ : Fin 1 => 1) none)
      ((Data.of 2 false [one 1, one 2, one 3]).rescale fun _ => 1) = (st, .ok ()) ∧
    (attribute' .efim (some (1 / 2)) st (Data.of 2 false []) (Data.of 2 false [one 3])).2 = .ok M ∧
    M.f 2 0 ≤ 3 := by
  obtain ⟨st, h⟩ := ex_cached 1 one_ne_zero
  obtain ⟨M, h1, _, _, h4⟩ := C243_bound (damping := some (1 / 2 : ℚ)) (by norm_num)
    (rescale_wf (of_wf (bs := 2) (by decide) false [one 1, one 2, one 3]) _) (by decide) h
    (Data.of 2 false []) (Data.of 2 false [one 3]) (by decide) (by decide)
  refine ⟨st, M, h, h1, ?_⟩
  have h5 := (h4 2 0 (one 3) ?_ rfl).2
  · rw [rescale_flatten, of_flatten_all (by decide)] at h5
    simpa using h5
  · rw [rescale_flatten, of_flatten_all (by decide)]
    simp only [List.map_cons, List.getElem?_cons_succ, List.getElem?_cons_zero]
    congr 1
    funext l k
    exact one_mul _

/-- Sample 1 on a test sample like sample 3. -/
example : ∃ st M, cache .efim (some (1 / 2)) (St.new ℚ (fun _ : Fin 1 => 1) none)
      ((Data.of 2 false [one 1, one 2, one 3]).rescale fun _ => 1) = (st, .ok ()) ∧
    (attribute' .efim (some (1 / 2)) st (Data.of 2 false []) (Data.of 2 false [one 3])).2 = .ok M ∧
    |M.f 0 0| ≤ 3 := by
  obtain ⟨st, h⟩ := ex_cached 1 one_ne_zero
  obtain ⟨M, h1, h2, _, h4⟩ := C243_pairs (damping := some (1 / 2 : ℚ)) (by norm_num)
    (rescale_wf (of_wf (bs := 2) (by decide) false [one 1, one 2, one 3]) _) (by decide) h
    (Data.of 2 false []) (Data.of 2 false [one 3]) (by decide) (by decide)
  refine ⟨st, M, h, h1, ?_⟩
  rw [rescale_flatten, of_flatten_all (by decide)] at h2 h4
  have h5 := h4 0 0 (one 3) (by rw [h2]; simp) (List.mem_map.2 ⟨one 3, by simp, by
    funext l k
    exact one_mul _⟩) rfl
  simpa using h5

/-- The three scores on themselves add up to at most 3. -/
example : ∃ st M, cache .efim (some (1 / 2)) (St.new ℚ (fun _ : Fin 1 => 1) none)
      ((Data.of 2 false [one 1, one 2, one 3]).rescale fun _ => 5) = (st, .ok ()) ∧
    (attribute' .efim (some (1 / 2)) st (Data.of 2 false [])
      ((Data.of 2 false [one 1, one 2, one 3]).rescale fun _ => 5)).2 = .ok M ∧
    ∑ i ∈ Finset.range 3, M.f i i ≤ 3 := by
  obtain ⟨st, h⟩ := ex_cached 5 (by norm_num)
  obtain ⟨M, h1, h2, _, h4⟩ := C243_total (damping := some (1 / 2 : ℚ)) (by norm_num)
    (rescale_wf (of_wf (bs := 2) (by decide) false [one 1, one 2, one 3]) _) (by decide) h
    (Data.of 2 false []) _ rfl (by decide) (by decide)
  have hr : M.r = 3 := by rw [h2]; rfl
  rw [hr] at h4
  exact ⟨st, M, h, h1, by simpa using h4⟩

/-- So do the self-influence scores. -/
example : ∃ st S, cache .efim (some (1 / 2)) (St.new ℚ (fun _ : Fin 1 => 1) none)
      ((Data.of 2 false [one 1, one 2, one 3]).rescale fun _ => 5) = (st, .ok ()) ∧
    (selfAttribution .efim st).2 = .ok (3, S) ∧ ∑ i ∈ Finset.range 3, S i ≤ 3 := by
  obtain ⟨st, h⟩ := ex_cached 5 (by norm_num)
  obtain ⟨S, h1, _, h3⟩ := C243_self (damping := some (1 / 2 : ℚ)) (by norm_num)
    (rescale_wf (of_wf (bs := 2) (by decide) false [one 1, one 2, one 3]) _) (by decide) h
  have hl : ((Data.of 2 false [one 1, one 2, one 3]).rescale
      fun _ => (5 : ℚ)).batches.flatten.length = 3 := rfl
  rw [hl] at h1 h3
  exact ⟨st, S, h, h1, by simpa using h3⟩

/-- Training gradients doubled, test gradients tripled: with the empirical Fisher matrix the scores
grow by 3/2. -/
example : ∃ st st' M M', cache .efim (some (1 / 2)) (St.new ℚ (fun _ : Fin 1 => 1) none)
      (Data.of 2 false [one 1, one 2, one 3]) = (st, .ok ()) ∧
    cache .efim (some (1 / 2)) (St.new ℚ (fun _ : Fin 1 => 1) none)
      ((Data.of 2 false [one 1, one 2, one 3]).rescale fun _ => 2) = (st', .ok ()) ∧
    (attribute' .efim (some (1 / 2)) st (Data.of 2 false []) (Data.of 2 false [one 10])).2 = .ok M ∧
    (attribute' .efim (some (1 / 2)) st' (Data.of 2 false [])
      ((Data.of 2 false [one 10]).rescale fun _ => 3)).2 = .ok M' ∧
    M'.f 1 0 = 3 / 2 * M.f 1 0 := by
  have hw := of_wf (bs := 2) (by decide) false [one 1, one 2, one 3]
  obtain ⟨st', h'⟩ := ex_cached 2 two_ne_zero
  obtain ⟨st, h0⟩ := (C243_layers (some (1 / 2)) hw (by decide) (s := fun _ => (2 : ℚ))
    (fun _ => two_ne_zero)).1.2 ⟨st', h'⟩
  obtain ⟨M, M', a1, a2, a3, a4, a5, a6, a7⟩ := C243_fisher (some (1 / 2)) hw (by decide)
    two_ne_zero 3 h0 h' (Data.of 2 false []) (Data.of 2 false []) (Data.of 2 false [one 10])
    (by decide) (by decide)
  have hr : M.r = 3 := by rw [a3]; rfl
  have hc : M.c = 1 := by rw [a4]; rfl
  exact ⟨st, st', M, M', h0, h', a1, a2, a7 1 0 (by omega) (by omega)⟩

/-- With Identity they grow by 6. -/
example : ∃ M M', (attribute' .identity none (cache .identity none
      (St.new ℚ (fun _ : Fin 1 => 1) none) (Data.of 2 false [one 1, one 2, one 3])).1
      (Data.of 2 false []) (Data.of 2 false [one 10])).2 = .ok M ∧
    (attribute' .identity none (cache .identity none
      (St.new ℚ (fun _ : Fin 1 => 1) none)
      ((Data.of 2 false [one 1, one 2, one 3]).rescale fun _ => 2)).1
      (Data.of 2 false []) ((Data.of 2 false [one 10]).rescale fun _ => 3)).2 = .ok M' ∧
    M'.f 1 0 = 2 * 3 * M.f 1 0 := by
  have hw := of_wf (bs := 2) (by decide) false [one 1, one 2, one 3]
  have hc : ∀ D : Data ℚ (fun _ : Fin 1 => 1), D.WF → D.batches ≠ [] →
      ∃ st, cache .identity none (St.new ℚ (fun _ : Fin 1 => 1) none) D = (st, .ok ()) := by
    intro D hD hne
    obtain ⟨s1, h1, _⟩ := stored_cache stored_new hD hne (fun hl => by
      rw [List.length_eq_zero_iff.1 hl])
    exact ⟨s1, by unfold cache; rw [h1]⟩
  obtain ⟨st, h0⟩ := hc _ hw (by decide)
  obtain ⟨st', h'⟩ := hc _ (rescale_wf hw fun _ => 2) (by decide)
  obtain ⟨M, M', a1, a2, a3, a4, a5, a6, a7⟩ := C243_identity none hw (by decide) 2 3 h0 h'
    (Data.of 2 false []) (Data.of 2 false []) (Data.of 2 false [one 10]) (by decide) (by decide)
  have hr : M.r = 3 := by rw [a3]; rfl
  have hcc : M.c = 1 := by rw [a4]; rfl
  rw [h0, h']
  exact ⟨M, M', a1, a2, a7 1 0 (by omega) (by omega)⟩

end Verif.BlockIF
