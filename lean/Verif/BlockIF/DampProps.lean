import Mathlib.Algebra.Order.Chebyshev
import Verif.BlockIF.ScaleProps

/-!
# The damping of block-projected influence functions (property C246)
-/

namespace Verif.BlockIF

open Verif

variable {F : Type} [Field F] [LinearOrder F] [IsStrictOrderedRing F] {L : ℕ} {d : Fin L → ℕ}

/-! ### Helper lemmas -/

omit [LinearOrder F] [IsStrictOrderedRing F] in
theorem damped_symm (δ : F) (l : Fin L) (samples : List (Row F d)) :
    (damped δ l samples).transpose = damped δ l samples := by
  unfold damped meanOuter
  rw [Matrix.transpose_add, Matrix.transpose_smul, Matrix.transpose_smul, Matrix.transpose_one]
  congr 2
  induction samples with
  | nil => simp
  | cons g gs ih =>
    rw [List.map_cons, List.sum_cons, Matrix.transpose_add, ih, Matrix.transpose_vecMulVec]

omit [LinearOrder F] [IsStrictOrderedRing F] in
theorem damped_swap (δ : F) (l : Fin L) (samples : List (Row F d)) (x y : Fin (d l) → F) :
    x ⬝ᵥ (damped δ l samples).mulVec y = y ⬝ᵥ (damped δ l samples).mulVec x := by
  rw [Matrix.dotProduct_mulVec, ← Matrix.mulVec_transpose, damped_symm, dotProduct_comm]

omit [LinearOrder F] [IsStrictOrderedRing F] in
theorem quad_split (δ : F) (l : Fin L) (samples : List (Row F d)) (v : Fin (d l) → F) :
    v ⬝ᵥ (damped δ l samples).mulVec v =
      (samples.length : F)⁻¹ * (samples.map fun g => (g l ⬝ᵥ v) ^ 2).sum +
        δ * (meanOuter l samples).trace / (d l : F) * (v ⬝ᵥ v) := by
  unfold damped
  rw [Matrix.add_mulVec, dotProduct_add, Matrix.smul_mulVec, Matrix.one_mulVec, dotProduct_smul,
    smul_eq_mul, quad_meanOuter]

theorem quad_nonneg (l : Fin L) (samples : List (Row F d)) (v : Fin (d l) → F) :
    0 ≤ (samples.length : F)⁻¹ * (samples.map fun g => (g l ⬝ᵥ v) ^ 2).sum := by
  refine mul_nonneg (inv_nonneg.2 (Nat.cast_nonneg _)) (List.sum_nonneg ?_)
  intro x hx
  obtain ⟨g', _, rfl⟩ := List.mem_map.1 hx
  exact sq_nonneg _

/-- More damping, a smaller contribution. -/
theorem layer_anti {δ δ' : F} (hδ : 0 ≤ δ) (hle : δ ≤ δ') (l : Fin L) {samples : List (Row F d)}
    (g : Fin (d l) → F) (hdet : (damped δ l samples).det ≠ 0)
    (hdet' : (damped δ' l samples).det ≠ 0) :
    ((damped δ' l samples)⁻¹).mulVec g ⬝ᵥ g ≤ ((damped δ l samples)⁻¹).mulVec g ⬝ᵥ g := by
  have hx : (damped δ l samples).mulVec (((damped δ l samples)⁻¹).mulVec g) = g := by
    rw [Matrix.mulVec_mulVec, Matrix.mul_nonsing_inv _ (isUnit_iff_ne_zero.2 hdet),
      Matrix.one_mulVec]
  have hy : (damped δ' l samples).mulVec (((damped δ' l samples)⁻¹).mulVec g) = g := by
    rw [Matrix.mulVec_mulVec, Matrix.mul_nonsing_inv _ (isUnit_iff_ne_zero.2 hdet'),
      Matrix.one_mulVec]
  generalize ((damped δ l samples)⁻¹).mulVec g = x at hx ⊢
  generalize ((damped δ' l samples)⁻¹).mulVec g = y at hy ⊢
  have ht := trace_meanOuter_nonneg l samples
  have h1 : 0 ≤ (y - x) ⬝ᵥ (damped δ l samples).mulVec (y - x) := by
    rw [quad_split]
    exact add_nonneg (quad_nonneg l samples _)
      (mul_nonneg (div_nonneg (mul_nonneg hδ ht) (Nat.cast_nonneg _)) (dot_self_nonneg _))
  rw [Matrix.mulVec_sub, sub_dotProduct, dotProduct_sub, dotProduct_sub, damped_swap δ l samples x y,
    hx] at h1
  have h2 : y ⬝ᵥ (damped δ l samples).mulVec y ≤ y ⬝ᵥ (damped δ' l samples).mulVec y := by
    rw [quad_split, quad_split]
    refine add_le_add le_rfl (mul_le_mul_of_nonneg_right ?_ (dot_self_nonneg y))
    exact div_le_div_of_nonneg_right (mul_le_mul_of_nonneg_right hle ht) (Nat.cast_nonneg _)
  rw [hy] at h2
  linarith

/-- A contribution is at most sample count times dimension over damping. -/
theorem layer_shrink {δ : F} (hδ : 0 < δ) (l : Fin L) {samples : List (Row F d)} {g : Row F d}
    (hg : g ∈ samples) (hdet : (damped δ l samples).det ≠ 0) :
    ((damped δ l samples)⁻¹).mulVec (g l) ⬝ᵥ g l ≤ samples.length * (d l : F) / δ := by
  have hn : (0 : F) < samples.length := by exact_mod_cast List.length_pos_of_mem hg
  have h0 := (layer_self hδ.le l hg hdet).1
  have hy : (damped δ l samples).mulVec (((damped δ l samples)⁻¹).mulVec (g l)) = g l := by
    rw [Matrix.mulVec_mulVec, Matrix.mul_nonsing_inv _ (isUnit_iff_ne_zero.2 hdet),
      Matrix.one_mulVec]
  generalize ((damped δ l samples)⁻¹).mulVec (g l) = y at hy h0 ⊢
  have hrhs : 0 ≤ samples.length * (d l : F) / δ :=
    div_nonneg (mul_nonneg hn.le (Nat.cast_nonneg _)) hδ.le
  rcases h0.eq_or_lt with hq | hq
  · rw [← hq]; exact hrhs
  by_cases hgl : g l = 0
  · rw [hgl, dotProduct_zero] at hq
    exact absurd hq (lt_irrefl _)
  have ht := trace_pos l ⟨g, hg, hgl⟩
  have hdl : (0 : F) < d l := by
    rcases Nat.eq_zero_or_pos (d l) with h | h
    · exfalso
      apply hgl
      funext i
      exact absurd i.2 (by omega)
    · exact_mod_cast h
  have hgg : g l ⬝ᵥ g l ≤ samples.length * (meanOuter l samples).trace := by
    rw [trace_meanOuter, ← mul_assoc, mul_inv_cancel₀ hn.ne', one_mul]
    exact List.single_le_sum (fun x hx => by
      obtain ⟨g', _, rfl⟩ := List.mem_map.1 hx
      exact dot_self_nonneg _) _ (List.mem_map.2 ⟨g, hg, rfl⟩)
  have hcs : (y ⬝ᵥ g l) ^ 2 ≤ (y ⬝ᵥ y) * (g l ⬝ᵥ g l) := by
    have := Finset.sum_mul_sq_le_sq_mul_sq Finset.univ y (g l)
    simpa [dotProduct, sq] using this
  have hquad : δ * (meanOuter l samples).trace / (d l : F) * (y ⬝ᵥ y) ≤ y ⬝ᵥ g l := by
    have := quad_split δ l samples y
    rw [hy] at this
    rw [this]
    exact le_add_of_nonneg_left (quad_nonneg l samples y)
  generalize (meanOuter l samples).trace = t at *
  generalize g l ⬝ᵥ g l = G at *
  generalize y ⬝ᵥ g l = q at *
  have hyy := dot_self_nonneg y
  generalize y ⬝ᵥ y = Y at *
  have hc : 0 < δ * t / (d l : F) := div_pos (mul_pos hδ ht) hdl
  have hG : 0 ≤ G := by
    by_contra hneg
    push Not at hneg
    have : Y * G ≤ 0 := mul_nonpos_of_nonneg_of_nonpos hyy hneg.le
    have : 0 < q ^ 2 := by positivity
    linarith
  have h1 : δ * t / (d l : F) * q ≤ G := by
    have h2 : (δ * t / (d l : F) * q) * q ≤ G * q := by
      calc (δ * t / (d l : F) * q) * q = δ * t / (d l : F) * q ^ 2 := by ring
        _ ≤ δ * t / (d l : F) * (Y * G) := mul_le_mul_of_nonneg_left hcs hc.le
        _ = (δ * t / (d l : F) * Y) * G := by ring
        _ ≤ q * G := mul_le_mul_of_nonneg_right hquad hG
        _ = G * q := mul_comm _ _
    exact le_of_mul_le_mul_right h2 hq
  rw [le_div_iff₀ hδ]
  have h3 : t * (q * δ) ≤ t * (samples.length * (d l : F)) := by
    have h4 := h1.trans hgg
    rw [div_mul_eq_mul_div, div_le_iff₀ hdl] at h4
    calc t * (q * δ) = δ * t * q := by ring
      _ ≤ _ := h4
      _ = _ := by ring
  exact le_of_mul_le_mul_left h3 ht

/-! ### C246 -/

/-- **C246.** A training sample's score on itself does not grow when the damping grows from `a ≥ 0`
to `b`, and with `b > 0` it is at most the number of training samples times the total compressed
dimension divided by `b`. -/
theorem C246_damping {a b : F} (ha : 0 ≤ a) (hab : a ≤ b) (hb : 0 < b) {D : Data F d} (hD : D.WF)
    (hne : D.batches ≠ []) {st st' : St F d}
    (hok : cache .efim (some a) (St.new F d none) D = (st, .ok ()))
    (hok' : cache .efim (some b) (St.new F d none) D = (st', .ok ()))
    (train train' test : Data F d) (ht : test.batches.flatten ≠ []) (hd : ∑ l, d l ≠ 0) :
    ∃ M M', (attribute' .efim (some a) st train test).2 = .ok M ∧
      (attribute' .efim (some b) st' train' test).2 = .ok M' ∧
      M.r = D.batches.flatten.length ∧ M.c = test.batches.flatten.length ∧ M'.r = M.r ∧
      M'.c = M.c ∧
      ∀ (i j : ℕ) (g : Row F d), D.batches.flatten[i]? = some g →
        test.batches.flatten[j]? = some g →
        0 ≤ M'.f i j ∧ M'.f i j ≤ M.f i j ∧
        M'.f i j ≤ (D.batches.flatten.length : F) * ((∑ l, d l : ℕ) : F) / b := by
  obtain ⟨M, h1, h2⟩ := C60_entries .efim (some a) hD hne hok train test ht hd
  obtain ⟨M', h1', h2'⟩ := C60_entries .efim (some b) hD hne hok' train' test ht hd
  refine ⟨M, M', h1, h1', by rw [h2.r, List.length_map], h2.c,
    by rw [h2.r, h2'.r, List.length_map, List.length_map], by rw [h2.c, h2'.c], ?_⟩
  intro i j g hi hj
  have hg : g ∈ D.batches.flatten := List.mem_of_getElem? hi
  have hdet := det_all (List.ne_nil_of_mem hg) ((C60_succeeds (some a) hD hne).1 ⟨st, hok⟩)
  have hdet' := det_all (List.ne_nil_of_mem hg) ((C60_succeeds (some b) hD hne).1 ⟨st', hok'⟩)
  rw [h2.f i j _ _ (by rw [List.getElem?_map, hi]; rfl) hj,
    h2'.f i j _ _ (by rw [List.getElem?_map, hi]; rfl) hj]
  refine ⟨Finset.sum_nonneg fun l _ => (layer_self hb.le l hg (hdet' l)).1,
    Finset.sum_le_sum fun l _ => layer_anti ha hab l (g l) (hdet l) (hdet' l),
    (Finset.sum_le_sum fun l _ => layer_shrink hb l hg (hdet' l)).trans ?_⟩
  simp only [div_eq_mul_inv]
  rw [← Finset.sum_mul, ← Finset.mul_sum, Nat.cast_sum]

/-- **C246 (when).** Caching succeeds with every positive damping as soon as it succeeds with some damping. -/
theorem C246_succeeds {a b : F} (hb : 0 < b) {D : Data F d} (hD : D.WF)
    (hne : D.batches ≠ []) (hok : ∃ st, cache .efim (some a) (St.new F d none) D = (st, .ok ())) :
    ∃ st, cache .efim (some b) (St.new F d none) D = (st, .ok ()) := by
  rw [C60_succeeds (some b) hD hne]
  have h := (C60_succeeds (some a) hD hne).1 hok
  intro l hl
  by_cases hz : ∃ g ∈ D.batches.flatten, g l ≠ 0
  · exact C56_exists hb l hz
  · exfalso
    push Not at hz
    refine h l hl ?_
    have hm : meanOuter l D.batches.flatten = 0 := by
      generalize D.batches.flatten = S at hz
      unfold meanOuter
      rw [List.map_congr_left (g := fun _ => 0) (fun s hs => by
        rw [hz s hs]; ext i j; simp [Matrix.vecMulVec])]
      simp
    have : Nonempty (Fin (d l)) := ⟨⟨0, Nat.pos_of_ne_zero hl.1⟩⟩
    unfold damped
    rw [hm]
    simp [Matrix.det_zero]

/-! ### Concrete case -/

/-- Samples 1, 2, 3: sample 3 on itself with damping 1/2 and with damping 30. -/
example : ∃ st st' M M',
    cache .efim (some (1 / 2)) (St.new ℚ (fun _ : Fin 1 => 1) none)
      ((Data.of 2 false [one 1, one 2, one 3]).rescale fun _ => 1) = (st, .ok ()) ∧
    cache .efim (some 30) (St.new ℚ (fun _ : Fin 1 => 1) none)
      ((Data.of 2 false [one 1, one 2, one 3]).rescale fun _ => 1) = (st', .ok ()) ∧
    (attribute' .efim (some (1 / 2)) st (Data.of 2 false []) (Data.of 2 false [one 3])).2 = .ok M ∧
    (attribute' .efim (some 30) st' (Data.of 2 false []) (Data.of 2 false [one 3])).2 = .ok M' ∧
    M'.f 2 0 ≤ M.f 2 0 ∧ M'.f 2 0 ≤ 1 / 10 := by
  have hw := rescale_wf (of_wf (bs := 2) (by decide) false [one 1, one 2, one 3]) (fun _ => (1 : ℚ))
  obtain ⟨st, h⟩ := ex_cached 1 one_ne_zero
  obtain ⟨st', h'⟩ := C246_succeeds (a := (1 / 2 : ℚ)) (b := 30) (by norm_num) hw
    (by decide) ⟨st, h⟩
  obtain ⟨M, M', h1, h2, _, _, _, _, h3⟩ := C246_damping (a := (1 / 2 : ℚ)) (b := 30) (by norm_num)
    (by norm_num) (by norm_num) hw (by decide) h h' (Data.of 2 false []) (Data.of 2 false [])
    (Data.of 2 false [one 3]) (by decide) (by decide)
  have h4 := h3 2 0 (one 3) (by
    rw [rescale_flatten, of_flatten_all (by decide)]
    simp only [List.map_cons, List.getElem?_cons_succ, List.getElem?_cons_zero]
    congr 1
    funext l k
    exact one_mul _) rfl
  refine ⟨st, st', M, M', h, h', h1, h2, h4.2.1, h4.2.2.trans ?_⟩
  rw [rescale_flatten, of_flatten_all (by decide)]
  norm_num

end Verif.BlockIF
