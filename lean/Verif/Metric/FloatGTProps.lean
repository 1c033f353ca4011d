import Verif.Metric.FloatGTModel
import Verif.Metric.LooProps
import Verif.TracIn.RoundProps

/-!
# Leave-one-out ground truth in float32 (C207)
-/

namespace Verif.FloatGT

open Verif Verif.Retrain Verif.TracInRound

variable {M : Type}

/-! ## Rounding keeps the order -/

theorem roundEven_ge_floor (t : ℝ) : ⌊t⌋ ≤ roundEven t := by
  unfold roundEven
  split_ifs <;> omega

theorem roundEven_le_floor (t : ℝ) : roundEven t ≤ ⌊t⌋ + 1 := by
  unfold roundEven
  split_ifs <;> omega

theorem roundEven_mono {s t : ℝ} (h : s ≤ t) : roundEven s ≤ roundEven t := by
  have hf := Int.floor_le_floor h
  rcases hf.lt_or_eq with hlt | heq
  · have h1 := roundEven_le_floor s
    have h2 := roundEven_ge_floor t
    omega
  · have hs := Int.self_sub_floor s
    have ht := Int.self_sub_floor t
    have hfr : Int.fract s ≤ Int.fract t := by
      rw [← hs, ← ht, heq]
      linarith
    unfold roundEven
    rw [heq]
    split_ifs <;> first | omega | (exfalso; linarith)

theorem roundEven_neg (t : ℝ) : roundEven (-t) = -roundEven t := by
  by_cases h0 : Int.fract t = 0
  · have h := Int.self_sub_floor t
    have e : t = (⌊t⌋ : ℤ) := by linarith
    rw [e, roundEven_int, show -((⌊t⌋ : ℤ) : ℝ) = ((-⌊t⌋ : ℤ) : ℝ) by push_cast; ring, roundEven_int]
  · have hfr := Int.fract_neg h0
    have hfl : ⌊-t⌋ = -⌊t⌋ - 1 := by
      have h1 := Int.self_sub_floor t
      have h2 := Int.self_sub_floor (-t)
      rw [hfr] at h2
      have : ((⌊-t⌋ : ℤ) : ℝ) = ((-⌊t⌋ - 1 : ℤ) : ℝ) := by push_cast; linarith
      exact_mod_cast this
    unfold roundEven
    rw [hfr, hfl]
    split_ifs <;> first | omega | (exfalso; linarith)

theorem lastPlace_neg (x : ℝ) : lastPlace (-x) = lastPlace x := by simp [lastPlace]

theorem float32_neg (x : ℝ) : float32 (-x) = -float32 x := by
  unfold float32
  rw [lastPlace_neg, neg_div, roundEven_neg]
  push_cast
  ring

theorem float32_nonneg {x : ℝ} (h : 0 ≤ x) : 0 ≤ float32 x := by
  have hp : (0 : ℝ) < 2 ^ lastPlace x := zpow_pos (by norm_num) _
  have h1 : (0 : ℤ) ≤ roundEven (x / 2 ^ lastPlace x) := by
    have := roundEven_mono (div_nonneg h hp.le)
    rwa [show (0 : ℝ) = ((0 : ℤ) : ℝ) by simp, roundEven_int] at this
  have h2 : (0 : ℝ) ≤ roundEven (x / 2 ^ lastPlace x) := by exact_mod_cast h1
  exact mul_nonneg h2 hp.le

theorem float32_mono_pos {x y : ℝ} (hx : 0 < x) (h : x ≤ y) : float32 x ≤ float32 y := by
  have hy : 0 < y := lt_of_lt_of_le hx h
  have hlog : Int.log 2 |x| ≤ Int.log 2 |y| := by
    rw [abs_of_pos hx, abs_of_pos hy]
    exact Int.log_mono_right hx h
  have hpx : (0 : ℝ) < 2 ^ lastPlace x := zpow_pos (by norm_num) _
  have hpy : (0 : ℝ) < 2 ^ lastPlace y := zpow_pos (by norm_num) _
  have hle : lastPlace x ≤ lastPlace y := by unfold lastPlace; omega
  rcases hle.lt_or_eq with hlt | heq
  · -- a power of two lies between
    have hL : lastPlace y = Int.log 2 |y| - 23 := by unfold lastPlace at hlt ⊢; omega
    have hLx : lastPlace x + 23 < Int.log 2 |y| := by omega
    have hlx : Int.log 2 |x| < Int.log 2 |y| := by unfold lastPlace at hlt; omega
    have hxL : x < (2 : ℝ) ^ Int.log 2 |y| := by
      have := (Int.lt_zpow_iff_log_lt (R := ℝ) (b := 2) (by norm_num) (abs_pos.2 hx.ne') (x := Int.log 2 |y|)).2 hlx
      rw [abs_of_pos hx] at this
      exact_mod_cast this
    have hyL : (2 : ℝ) ^ Int.log 2 |y| ≤ y := by
      have := Int.zpow_log_le_self (R := ℝ) (b := 2) (by norm_num) (abs_pos.2 hy.ne')
      rw [abs_of_pos hy] at this ⊢
      exact_mod_cast this
    have hpow : ∀ e : ℤ, e ≤ Int.log 2 |y| → ∃ z : ℤ, (2 : ℝ) ^ Int.log 2 |y| = z * 2 ^ e := by
      intro e he
      obtain ⟨k, hk⟩ := Int.eq_ofNat_of_zero_le (sub_nonneg.2 he)
      refine ⟨2 ^ k, ?_⟩
      have : Int.log 2 |y| = k + e := by omega
      rw [this, zpow_add₀ (by norm_num), zpow_natCast]
      push_cast
      rfl
    obtain ⟨z, hz⟩ := hpow (lastPlace x) (by omega)
    obtain ⟨w, hw⟩ := hpow (lastPlace y) (by omega)
    have h1 : float32 x ≤ 2 ^ Int.log 2 |y| := by
      rw [hz]
      unfold float32
      refine mul_le_mul_of_nonneg_right ?_ hpx.le
      have : x / 2 ^ lastPlace x ≤ ((z : ℤ) : ℝ) := by
        rw [div_le_iff₀ hpx, ← hz]
        exact hxL.le
      have := roundEven_mono this
      rw [roundEven_int] at this
      exact_mod_cast this
    have h2 : 2 ^ Int.log 2 |y| ≤ float32 y := by
      rw [hw]
      unfold float32
      refine mul_le_mul_of_nonneg_right ?_ hpy.le
      have : ((w : ℤ) : ℝ) ≤ y / 2 ^ lastPlace y := by
        rw [le_div_iff₀ hpy, ← hw]
        exact hyL
      have := roundEven_mono this
      rw [roundEven_int] at this
      exact_mod_cast this
    exact h1.trans h2
  · unfold float32
    rw [heq]
    refine mul_le_mul_of_nonneg_right ?_ hpy.le
    have := roundEven_mono (div_le_div_of_nonneg_right h hpy.le)
    exact_mod_cast this

/-- Storing in float32 never turns the order of two numbers round. -/
theorem C207_monotone {x y : ℝ} (h : x ≤ y) : float32 x ≤ float32 y := by
  have h0 : float32 0 = 0 := by simp [float32, roundEven]
  rcases lt_trichotomy x 0 with hx | hx | hx
  · rcases le_or_gt y 0 with hy | hy
    · rcases hy.lt_or_eq with hy | hy
      · have := float32_mono_pos (x := -y) (y := -x) (by linarith) (by linarith)
        rw [float32_neg, float32_neg] at this
        linarith
      · subst hy
        have := float32_nonneg (x := -x) (by linarith)
        rw [float32_neg] at this
        rw [h0]
        linarith
    · have h1 := float32_nonneg (x := -x) (by linarith)
      rw [float32_neg] at h1
      have h2 := float32_nonneg hy.le
      linarith
  · subst hx
    rw [h0]
    exact float32_nonneg h
  · exact float32_mono_pos hx h

/-- If all removed indices are at most `2²⁴`, the index tensor holds them exactly and in increasing order. -/
theorem C207_indices (target : M → List ℝ) (m : ℤ → M) (ks ks' : List ℤ) (hperm : ks'.Perm ks) (hsorted : ks'.Pairwise (· < ·))
    (listing : List (Entry M)) (hl : (listing.filter fun e => decide (Relevant e)).Perm (ks.map (looEntry m)))
    (hk : ∀ k ∈ ks, |k| ≤ 2 ^ 24) :
    ∃ vs, looTensors target listing = .ok (vs, ks'.map fun k : ℤ => (k : ℝ)) := by
  unfold looTensors
  rw [C42_sorted_by_index target m ks ks' hperm hsorted listing hl]
  refine ⟨(ks'.map fun k => target (m k)).map fun row => row.map float32, ?_⟩
  simp only [Except.map]
  congr 2
  refine List.map_congr_left fun k hk' => ?_
  refine C203_float32_integers k ?_
  have := hk k (hperm.mem_iff.1 hk')
  have h2 : ((|k| : ℤ) : ℝ) ≤ ((2 ^ 24 : ℤ) : ℝ) := Int.cast_le.2 this
  rw [Int.cast_abs] at h2
  refine h2.trans ?_
  norm_num

/-- In general the values of every test sample keep their order, up to ties, and so do the indices, and each is off by at most the
rounding error. -/
theorem C207_order (target : M → List ℝ) (listing : List (Entry M)) (vals : List (List ℝ)) (ks : List ℤ)
    (h : looGroundTruth target listing = .ok (vals, ks)) :
    ∃ (vals' : List (List ℝ)) (ks' : List ℝ), looTensors target listing = .ok (vals', ks') ∧ vals'.length = vals.length ∧ ks'.length = ks.length ∧
      (∀ (i j t : ℕ) (x y : ℝ), (vals[i]?.bind fun r : List ℝ => r[t]?) = some x → (vals[j]?.bind fun r : List ℝ => r[t]?) = some y → x ≤ y →
        ∃ x' y', (vals'[i]?.bind fun r : List ℝ => r[t]?) = some x' ∧ (vals'[j]?.bind fun r : List ℝ => r[t]?) = some y' ∧ x' ≤ y') ∧
      (∀ (i : ℕ) (x : ℤ), ks[i]? = some x → ∃ x', ks'[i]? = some x' ∧ |x' - x| ≤ 2 ^ (-24 : ℤ) * |(x : ℝ)| + 2 ^ (-150 : ℤ)) := by
  refine ⟨vals.map fun row => row.map float32, ks.map fun k : ℤ => float32 (k : ℝ), ?_, by simp, by simp, ?_, ?_⟩
  · unfold looTensors
    rw [h]
    rfl
  · intro i j t x y hx hy hxy
    have key : ∀ (i : ℕ) (x : ℝ), (vals[i]?.bind fun r : List ℝ => r[t]?) = some x →
        ((vals.map fun row => row.map float32)[i]?.bind fun r : List ℝ => r[t]?) = some (float32 x) := by
      intro i x hx
      rw [Option.bind_eq_some_iff] at hx
      obtain ⟨r, hr, ht⟩ := hx
      simp [List.getElem?_map, hr, ht]
    exact ⟨_, _, key i x hx, key j y hy, C207_monotone hxy⟩
  · intro i x hx
    refine ⟨float32 (x : ℝ), by simp [List.getElem?_map, hx], ?_⟩
    exact C203_float32 _

/-- The first index that is not kept: the models without sample `2²⁴` and without sample `2²⁴ + 1` get the same entry. -/
theorem C207_collision (target : M → List ℝ) (m : ℤ → M) :
    ∃ vs, looTensors target [looEntry m (2 ^ 24), looEntry m (2 ^ 24 + 1)] = .ok (vs, [2 ^ 24, 2 ^ 24]) := by
  have hrel : ∀ k, Relevant (looEntry m k) := fun k => ⟨rfl, ⟨_, rfl⟩⟩
  have h := C42_sorted_by_index target m [2 ^ 24, 2 ^ 24 + 1] [2 ^ 24, 2 ^ 24 + 1] (List.Perm.refl _)
    (by simp) [looEntry m (2 ^ 24), looEntry m (2 ^ 24 + 1)] (by
      rw [List.filter_cons_of_pos (by simpa using hrel _), List.filter_cons_of_pos (by simpa using hrel _)]
      exact List.Perm.refl _)
  unfold looTensors
  rw [h]
  have big : float32 (((2 ^ 24 : ℤ)) : ℝ) = 2 ^ 24 := by
    rw [C203_float32_integers _ (by norm_num)]
    norm_num
  have tie : float32 (((2 ^ 24 + 1 : ℤ)) : ℝ) = 2 ^ 24 := by
    have e : (((2 ^ 24 + 1 : ℤ)) : ℝ) = 2 ^ 24 + 1 := by norm_num
    rw [e]
    unfold float32
    rw [lastPlace_eq (by norm_num) (by norm_num)]
    have hfl : ⌊((2 ^ 24 + 1 : ℝ) / 2 ^ (1 : ℤ))⌋ = 8388608 := by
      rw [Int.floor_eq_iff]; norm_num
    have hfr : Int.fract ((2 ^ 24 + 1 : ℝ) / 2 ^ (1 : ℤ)) = 1 / 2 := by
      rw [← Int.self_sub_floor, hfl]; norm_num
    have : roundEven ((2 ^ 24 + 1 : ℝ) / 2 ^ (1 : ℤ)) = 8388608 := by
      unfold roundEven
      rw [hfr, hfl]
      norm_num
    rw [this]
    norm_num
  refine ⟨([2 ^ 24, 2 ^ 24 + 1].map fun k => target (m k)).map fun row => row.map float32, ?_⟩
  simp only [Except.map, List.map_cons, List.map_nil, big, tie]

/-! ## Examples -/

/-- The hypotheses of `C207_indices`: indices 3 and 10, listed the other way round. -/
example (m : ℤ → M) : ([looEntry m 10, looEntry m 3].filter fun e => decide (Relevant e)).Perm ([3, 10].map (looEntry m)) := by
  have hrel : ∀ k, Relevant (looEntry m k) := fun k => ⟨rfl, ⟨_, rfl⟩⟩
  rw [List.filter_cons_of_pos (by simpa using hrel _), List.filter_cons_of_pos (by simpa using hrel _)]
  exact List.Perm.swap _ _ _

/-- The order of two stored values. -/
example : float32 (1 / 3) ≤ float32 (1 / 2) := C207_monotone (by norm_num)

end Verif.FloatGT
