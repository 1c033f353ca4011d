import Mathlib.Tactic.Linarith
import Mathlib.Tactic.Positivity
import Mathlib.Tactic.FieldSimp
import Verif.Bench.MusicLoss

/-!
# C122, C125: learning rate and smoothed loss of the MusicTransformer
-/

namespace Verif.MusicLoss

lemma new_ok {d w i : ℤ} (hd : 0 < d) (hw : 0 < w) : Tracker.new d w i = .ok ⟨w, i, 1 / (1 * √(d : ℝ)), 1 / ((w : ℝ) * √(w : ℝ))⟩ := by
  unfold Tracker.new invSqrt
  rw [if_neg (by omega), if_neg (by omega), if_neg (by omega), if_neg (by omega)]
  rfl

/-- **C122** (construction). The schedule exists exactly for positive dimension and warm-up; zero and negative values raise. -/
theorem C122_defined (d w i : ℤ) :
    ((∃ t, Tracker.new d w i = .ok t) ↔ 0 < d ∧ 0 < w) ∧
    (d < 0 → Tracker.new d w i = .error .valueError) ∧ (d = 0 → Tracker.new d w i = .error .zeroDivisionError) ∧
    (0 < d → w < 0 → Tracker.new d w i = .error .valueError) ∧ (0 < d → w = 0 → Tracker.new d w i = .error .zeroDivisionError) := by
  have h1 : d < 0 → Tracker.new d w i = .error .valueError := by
    intro h; unfold Tracker.new invSqrt; rw [if_pos h]; rfl
  have h2 : d = 0 → Tracker.new d w i = .error .zeroDivisionError := by
    intro h; unfold Tracker.new invSqrt; rw [if_neg (by omega), if_pos h]; rfl
  have h3 : 0 < d → w < 0 → Tracker.new d w i = .error .valueError := by
    intro h h'; unfold Tracker.new invSqrt; rw [if_neg (by omega), if_neg (by omega), if_pos h']; rfl
  have h4 : 0 < d → w = 0 → Tracker.new d w i = .error .zeroDivisionError := by
    intro h h'; unfold Tracker.new invSqrt; rw [if_neg (by omega), if_neg (by omega), if_neg (by omega), if_pos h']; rfl
  refine ⟨⟨?_, fun ⟨hd, hw⟩ => ⟨_, new_ok hd hw⟩⟩, h1, h2, h3, h4⟩
  rintro ⟨t, ht⟩
  rcases lt_trichotomy d 0 with h | h | h
  · rw [h1 h] at ht; cases ht
  · rw [h2 h] at ht; cases ht
  · refine ⟨h, ?_⟩
    rcases lt_trichotomy w 0 with h' | h' | h'
    · rw [h3 h h'] at ht; cases ht
    · rw [h4 h h'] at ht; cases ht
    · exact h'

/-- Specification: the rate as documented for a positive step. -/
noncomputable def documented (d w s : ℝ) : ℝ := (1 / √d) * min (1 / √s) (s * w ^ (-(3 / 2) : ℝ))

lemma pow_three_half {w : ℝ} (hw : 0 < w) : w ^ (-(3 / 2) : ℝ) = 1 / (w * √w) := by
  rw [Real.rpow_neg hw.le, one_div]
  congr 1
  rw [show (3 / 2 : ℝ) = 1 + 1 / 2 by norm_num, Real.rpow_add hw, Real.rpow_one, Real.sqrt_eq_rpow]

lemma step_eq {d w i : ℤ} (hd : 0 < d) (hw : 0 < w) {t : Tracker} (ht : Tracker.new d w i = .ok t) (k : ℤ) :
    (k + i ≤ w → t.step k = .ok (1 / √(d : ℝ) * (((k + i : ℤ) : ℝ) / ((w : ℝ) * √(w : ℝ))))) ∧
    (w < k + i → t.step k = .ok (1 / √(d : ℝ) * (1 / √((k + i : ℤ) : ℝ)))) := by
  rw [new_ok hd hw] at ht
  cases ht
  unfold Tracker.step
  simp only
  constructor
  · intro h
    rw [if_pos h]
    congr 1
    ring
  · intro h
    rw [if_neg (by omega)]
    unfold invSqrt
    rw [if_neg (by omega), if_neg (by omega)]
    show Except.ok _ = _
    rw [one_mul, one_mul]

/-- **C122** (formula). At every positive step the rate is the documented `1/sqrt(d) * min(1/sqrt(s), s * w^-1.5)`. -/
theorem C122_formula (d w i k : ℤ) (hd : 0 < d) (hw : 0 < w) (hs : 0 < k + i) {t : Tracker} (ht : Tracker.new d w i = .ok t) :
    t.step k = .ok (documented d w ((k + i : ℤ) : ℝ)) := by
  obtain ⟨h1, h2⟩ := step_eq hd hw ht k
  have hwR : (0 : ℝ) < w := by exact_mod_cast hw
  have hsR : (0 : ℝ) < ((k + i : ℤ) : ℝ) := by exact_mod_cast hs
  unfold documented
  rw [pow_three_half hwR]
  set s : ℝ := ((k + i : ℤ) : ℝ) with hsdef
  have hsq : 0 < √s := Real.sqrt_pos.2 hsR
  have hwq : 0 < √(w : ℝ) := Real.sqrt_pos.2 hwR
  have e1 : s * (1 / ((w : ℝ) * √(w : ℝ))) = s / ((w : ℝ) * √(w : ℝ)) := by rw [mul_one_div]
  have key : s / ((w : ℝ) * √(w : ℝ)) = (s * √s) / ((w : ℝ) * √(w : ℝ)) * (1 / √s) := by
    field_simp
  rcases le_or_gt (k + i) w with h | h
  · rw [h1 h, e1]
    have hle : s ≤ w := by rw [hsdef]; exact_mod_cast h
    have : s / ((w : ℝ) * √(w : ℝ)) ≤ 1 / √s := by
      rw [key]
      have : (s * √s) / ((w : ℝ) * √(w : ℝ)) ≤ 1 := by
        rw [div_le_one (by positivity)]
        exact mul_le_mul hle (Real.sqrt_le_sqrt hle) hsq.le hwR.le
      nlinarith [this, one_div_pos.2 hsq]
    rw [min_eq_right this]
  · rw [h2 h, e1]
    have hle : (w : ℝ) ≤ s := by rw [hsdef]; exact_mod_cast h.le
    have : 1 / √s ≤ s / ((w : ℝ) * √(w : ℝ)) := by
      rw [key]
      have : 1 ≤ (s * √s) / ((w : ℝ) * √(w : ℝ)) := by
        rw [le_div_iff₀ (by positivity), one_mul]
        exact mul_le_mul hle (Real.sqrt_le_sqrt hle) hwq.le hsR.le
      nlinarith [this, one_div_pos.2 hsq]
    rw [min_eq_left this]

/-- **C122** (shape). The rate rises strictly up to the end of the warm-up, where it is `1/sqrt(d*w)`, and falls strictly from there on. -/
theorem C122_shape (d w i : ℤ) (hd : 0 < d) (hw : 0 < w) {t : Tracker} (ht : Tracker.new d w i = .ok t) :
    t.step (w - i) = .ok (1 / √((d : ℝ) * w)) ∧
    (∀ k l, k < l → l + i ≤ w → ∃ x y, t.step k = .ok x ∧ t.step l = .ok y ∧ x < y) ∧
    (∀ k l, k < l → w ≤ k + i → ∃ x y, t.step k = .ok x ∧ t.step l = .ok y ∧ y < x) := by
  have hdR : (0 : ℝ) < d := by exact_mod_cast hd
  have hwR : (0 : ℝ) < w := by exact_mod_cast hw
  have hdq : 0 < √(d : ℝ) := Real.sqrt_pos.2 hdR
  have hwq : 0 < √(w : ℝ) := Real.sqrt_pos.2 hwR
  have peak : ∀ k, k + i = w → t.step k = .ok (1 / √(d : ℝ) * (1 / √(w : ℝ))) := by
    intro k hk
    rw [(step_eq hd hw ht k).1 hk.le, hk]
    congr 2
    field_simp
  refine ⟨?_, ?_, ?_⟩
  · rw [peak (w - i) (by omega), Real.sqrt_mul hdR.le, one_div_mul_one_div]
  · intro k l hkl hl
    refine ⟨_, _, (step_eq hd hw ht k).1 (by omega), (step_eq hd hw ht l).1 hl, ?_⟩
    have : ((k + i : ℤ) : ℝ) < ((l + i : ℤ) : ℝ) := by exact_mod_cast (by omega)
    apply mul_lt_mul_of_pos_left _ (one_div_pos.2 hdq)
    exact div_lt_div_of_pos_right this (mul_pos hwR hwq)
  · intro k l hkl hk
    have hl := (step_eq hd hw ht l).2 (by omega)
    have hk' : t.step k = .ok (1 / √(d : ℝ) * (1 / √((k + i : ℤ) : ℝ))) := by
      rcases eq_or_lt_of_le hk with h | h
      · rw [peak k h.symm, ← h]
      · exact (step_eq hd hw ht k).2 h
    refine ⟨_, _, hk', hl, ?_⟩
    have h1 : ((k + i : ℤ) : ℝ) < ((l + i : ℤ) : ℝ) := by exact_mod_cast (by omega)
    have h0 : (0 : ℝ) < ((k + i : ℤ) : ℝ) := by exact_mod_cast (by omega)
    apply mul_lt_mul_of_pos_left _ (one_div_pos.2 hdq)
    exact one_div_lt_one_div_of_lt (Real.sqrt_pos.2 h0) (Real.sqrt_lt_sqrt h0.le h1)

/-- **C122** (first step). A new schedule starts at rate zero: the first update of the optimiser changes nothing. -/
theorem C122_first (d w : ℤ) (hd : 0 < d) (hw : 0 < w) {t : Tracker} (ht : Tracker.new d w 0 = .ok t) : t.step 0 = .ok 0 := by
  rw [(step_eq hd hw ht 0).1 (by omega)]
  simp

example : ∃ t, Tracker.new 512 4000 0 = .ok t ∧ t.step 0 = .ok 0 ∧ t.step 4000 = .ok (1 / √(((512 : ℤ) : ℝ) * ((4000 : ℤ) : ℝ))) := by
  obtain ⟨t, ht⟩ := (C122_defined 512 4000 0).1.2 ⟨by decide, by decide⟩
  exact ⟨t, ht, C122_first 512 4000 (by decide) (by decide) ht, (C122_shape 512 4000 0 (by decide) (by decide) ht).1⟩

/-! ## The smoothed loss -/

/-- Specification: cross entropy of the logits with class `v`. -/
noncomputable def crossEntropy {V : ℕ} (x : Fin V → ℝ) (v : Fin V) : ℝ := Real.log (∑ u, Real.exp (x u)) - x v

/-- Specification: the smoothed loss of one row: cross entropy with the target, mixed with the mean over all classes. -/
noncomputable def mixed {V : ℕ} (s : ℝ) (x : Fin V → ℝ) (t : Fin V) : ℝ :=
  (1 - s) * crossEntropy x t + s * ((∑ v, crossEntropy x v) / V)

lemma row_loss {V : ℕ} (s : ℝ) (x : Fin V → ℝ) (t : Fin V) :
    - ∑ v, smoothed s false (t : ℤ) v * (x v - logsumexp x) = mixed s x t := by
  unfold mixed
  have h : ∀ v, smoothed s false (t : ℤ) v * (x v - logsumexp x) =
      (if v = t then (1 - s) * (x t - logsumexp x) else 0) + s / V * (x v - logsumexp x) := by
    intro v
    unfold smoothed
    simp only [Bool.false_eq_true, if_false]
    have : ((v : ℕ) : ℤ) = ((t : ℕ) : ℤ) ↔ v = t := by rw [Int.natCast_inj, Fin.ext_iff]
    simp only [this]
    split_ifs with hv
    · subst hv; ring
    · ring
  rw [Finset.sum_congr rfl fun v _ => h v, Finset.sum_add_distrib, Finset.sum_ite_eq' Finset.univ t, if_pos (Finset.mem_univ t),
    ← Finset.mul_sum]
  have h2 : ∑ v, crossEntropy x v = - ∑ v, (x v - logsumexp x) := by
    rw [← Finset.sum_neg_distrib]
    apply Finset.sum_congr rfl
    intro v _
    unfold crossEntropy logsumexp
    ring
  rw [h2]
  unfold crossEntropy logsumexp
  ring

lemma sum_rows {V : ℕ} (s : ℝ) (ignore : ℤ) (rows : List ((Fin V → ℝ) × Fin V)) :
    ((rows.map fun r => (r.1, ((r.2 : ℕ) : ℤ))).map
      fun r => - ∑ v, smoothed s (decide (r.2 = ignore)) r.2 v * (r.1 v - logsumexp r.1)).sum =
    ((rows.filter fun r => ((r.2 : ℕ) : ℤ) ≠ ignore).map fun r => mixed s r.1 r.2).sum := by
  induction rows with
  | nil => rfl
  | cons r rows ih =>
    rw [List.map_cons, List.map_cons, List.sum_cons, ih, List.filter_cons]
    by_cases h : ((r.2 : ℕ) : ℤ) = ignore
    · rw [if_neg (by simpa using h)]
      simp [h, smoothed]
    · rw [if_pos (by simpa using h), List.map_cons, List.sum_cons]
      simp only [h, decide_false]
      rw [row_loss]

lemma classes_ok {V : ℕ} (rows : List ((Fin V → ℝ) × Fin V)) :
    ¬ ∃ r ∈ rows.map fun r => (r.1, ((r.2 : ℕ) : ℤ)), r.2 < 0 ∨ (V : ℤ) ≤ r.2 := by
  rintro ⟨r, hr, h⟩
  obtain ⟨r', -, rfl⟩ := List.mem_map.1 hr
  have := r'.2.isLt
  simp only at h
  omega

lemma kept_length {V : ℕ} (ignore : ℤ) (rows : List ((Fin V → ℝ) × Fin V)) :
    ((rows.map fun r => (r.1, ((r.2 : ℕ) : ℤ))).filter fun r => r.2 ≠ ignore).length =
      (rows.filter fun r => ((r.2 : ℕ) : ℤ) ≠ ignore).length := by
  rw [List.filter_map, List.length_map]
  rfl

/-- **C125** (value). On targets that are classes the summed loss is the sum over the rows whose target is not ignored of the smoothed cross entropy;
the mean divides by their number and is not a number if there are none. -/
theorem C125_value {V : ℕ} (s : ℝ) (ignore : ℤ) (rows : List ((Fin V → ℝ) × Fin V)) :
    let kept := rows.filter fun r => ((r.2 : ℕ) : ℤ) ≠ ignore
    let total := (kept.map fun r => mixed s r.1 r.2).sum
    forward s ignore .sum (rows.map fun r => (r.1, ((r.2 : ℕ) : ℤ))) = .ok (.num total) ∧
    (kept ≠ [] → forward s ignore .mean (rows.map fun r => (r.1, ((r.2 : ℕ) : ℤ))) = .ok (.num (total / kept.length))) ∧
    (kept = [] → forward s ignore .mean (rows.map fun r => (r.1, ((r.2 : ℕ) : ℤ))) = .ok .nan) := by
  intro kept total
  unfold forward
  rw [if_neg (classes_ok rows)]
  simp only
  rw [sum_rows]
  refine ⟨rfl, ?_, ?_⟩
  · intro h
    rw [if_neg (classes_ok rows), kept_length, if_neg (fun h' => h (List.length_eq_zero_iff.1 h'))]
  · intro h
    rw [if_neg (classes_ok rows), kept_length, if_pos (List.length_eq_zero_iff.2 h)]

/-- **C125** (no smoothing). Without smoothing the loss of a row is the cross entropy; with any smoothing from 0 to 1 it is not negative. -/
theorem C125_row {V : ℕ} (x : Fin V → ℝ) (t : Fin V) : mixed 0 x t = crossEntropy x t ∧ ∀ s, 0 ≤ s → s ≤ 1 → 0 ≤ mixed s x t := by
  have hce : ∀ v, 0 ≤ crossEntropy x v := by
    intro v
    unfold crossEntropy
    rw [sub_nonneg, Real.le_log_iff_exp_le]
    · exact Finset.single_le_sum (f := fun u => Real.exp (x u)) (fun u _ => (Real.exp_pos _).le) (Finset.mem_univ v)
    · exact lt_of_lt_of_le (Real.exp_pos (x v))
        (Finset.single_le_sum (f := fun u => Real.exp (x u)) (fun u _ => (Real.exp_pos _).le) (Finset.mem_univ v))
  refine ⟨by unfold mixed; ring, ?_⟩
  intro s h0 h1
  unfold mixed
  have := Finset.sum_nonneg fun v (_ : v ∈ Finset.univ) => hce v
  have h3 := hce t
  have : 0 ≤ s * ((∑ v, crossEntropy x v) / V) := mul_nonneg h0 (div_nonneg this (Nat.cast_nonneg _))
  have : 0 ≤ (1 - s) * crossEntropy x t := mul_nonneg (by linarith) h3
  linarith

lemma mixed_eq {V : ℕ} (hV : 0 < V) (s : ℝ) (x : Fin V → ℝ) (t : Fin V) :
    mixed s x t = Real.log (∑ u, Real.exp (x u)) - ((1 - s) * x t + s * (∑ v, x v) / V) := by
  have hV' : (V : ℝ) ≠ 0 := Nat.cast_ne_zero.2 hV.ne'
  unfold mixed crossEntropy
  rw [Finset.sum_sub_distrib, Finset.sum_const, Finset.card_univ, Fintype.card_fin, nsmul_eq_mul]
  field_simp
  ring

/-- **C125** (smoothing). The loss can be constructed exactly with the smoothings for which no row of any number of classes has a negative loss: those from
0 to 1; any other raises `AssertionError`. -/
theorem C125_smoothing (s : ℝ) :
    (checkSmoothing s = .ok () ↔ ∀ (V : ℕ) (x : Fin V → ℝ) (t : Fin V), 0 ≤ mixed s x t) ∧
    (checkSmoothing s = .ok () ↔ 0 ≤ s ∧ s ≤ 1) ∧ (¬ (0 ≤ s ∧ s ≤ 1) → checkSmoothing s = .error .assertionError) := by
  have h0 : checkSmoothing s = .ok () ↔ 0 ≤ s ∧ s ≤ 1 := by
    unfold checkSmoothing
    split_ifs with h <;> simp [h]
  refine ⟨?_, h0, fun h => by unfold checkSmoothing; rw [if_neg h]⟩
  rw [h0]
  refine ⟨fun h V x t => (C125_row x t).2 s h.1 h.2, fun H => ⟨?_, ?_⟩⟩
  · by_contra hs
    rw [not_le] at hs
    -- two classes, the target's logit `M`
    have hM0 : 0 ≤ 2 * (Real.log 2 + 1) / (-s) :=
      div_nonneg (by have := Real.log_nonneg (show (1 : ℝ) ≤ 2 by norm_num); linarith) (by linarith)
    have hMs : 2 * (Real.log 2 + 1) / (-s) * s = - (2 * (Real.log 2 + 1)) := by
      have : s ≠ 0 := hs.ne
      field_simp
    generalize 2 * (Real.log 2 + 1) / (-s) = M at hM0 hMs
    have h := H 2 ![M, 0] 0
    rw [mixed_eq (by norm_num)] at h
    simp only [Fin.sum_univ_two, Matrix.cons_val_zero, Matrix.cons_val_one, Real.exp_zero, Nat.cast_ofNat, add_zero] at h
    have h1 : Real.log (Real.exp M + 1) ≤ Real.log 2 + M := by
      rw [← Real.log_exp M, ← Real.log_mul (by norm_num) (Real.exp_pos _).ne', Real.log_exp]
      apply Real.log_le_log (by positivity)
      have := Real.one_le_exp hM0
      linarith
    nlinarith
  · by_contra hs
    rw [not_le] at hs
    -- `V` classes with `s (V - 1) / V > 1`, the target's logit `-M`
    obtain ⟨n, hn⟩ := exists_nat_gt (1 / (s - 1))
    have hn' : 1 < n * (s - 1) := by rwa [div_lt_iff₀ (by linarith)] at hn
    have hden : 0 < s * n - (n + 1) := by linarith
    have hL : 0 ≤ Real.log ((n : ℝ) + 1) := Real.log_nonneg (by have : (0 : ℝ) ≤ n := Nat.cast_nonneg n; linarith)
    have hM0 : 0 ≤ (n + 1) * (Real.log ((n : ℝ) + 1) + 1) / (s * n - (n + 1)) := by positivity
    have hMs : (n + 1) * (Real.log ((n : ℝ) + 1) + 1) / (s * n - (n + 1)) * (s * n - (n + 1)) = (n + 1) * (Real.log ((n : ℝ) + 1) + 1) :=
      div_mul_cancel₀ _ hden.ne'
    generalize (n + 1) * (Real.log ((n : ℝ) + 1) + 1) / (s * n - (n + 1)) = M at hM0 hMs
    have h := H (n + 1) (Fin.cons (-M) fun _ => 0) 0
    rw [mixed_eq (by omega)] at h
    simp only [Fin.sum_univ_succ, Fin.cons_zero, Fin.cons_succ, Real.exp_zero, Finset.sum_const, Finset.card_univ, Fintype.card_fin, nsmul_eq_mul,
      mul_one, mul_zero, add_zero] at h
    push_cast at h
    have h1 : Real.log (Real.exp (-M) + n) ≤ Real.log ((n : ℝ) + 1) := by
      apply Real.log_le_log (by positivity)
      have := Real.exp_le_one_iff.2 (show -M ≤ 0 by linarith)
      linarith
    have hn0 : (0 : ℝ) < (n : ℝ) + 1 := by positivity
    have h2 : (1 - s) * -M + s * -M / (n + 1) = M * (s * n - (n + 1)) / (n + 1) := by
      field_simp
      ring
    rw [h2, hMs, mul_div_cancel_left₀ _ hn0.ne'] at h
    linarith

/-- **C125** (targets that are no classes). A target that is not a class raises `RuntimeError`, also if it is the ignored one; so with the default
`ignore_index=-100` no target can ever be ignored. -/
theorem C125_outside {V : ℕ} (s : ℝ) (ignore : ℤ) (red : Reduction) (rows : List ((Fin V → ℝ) × ℤ)) :
    ((∃ r ∈ rows, r.2 < 0 ∨ (V : ℤ) ≤ r.2) → forward s ignore red rows = .error .runtimeError) ∧
    ((∃ r ∈ rows, r.2 = -100) → forward s (-100) red rows = .error .runtimeError) := by
  have h : ∀ ig, (∃ r ∈ rows, r.2 < 0 ∨ (V : ℤ) ≤ r.2) → forward s ig red rows = .error .runtimeError := by
    intro ig h
    unfold forward
    rw [if_pos h]
  refine ⟨h ignore, ?_⟩
  rintro ⟨r, hr, he⟩
  exact h _ ⟨r, hr, Or.inl (by omega)⟩

/-- Two classes, the second row ignored: the loss is that of the first row. -/
example (x y : Fin 2 → ℝ) : forward (1 / 10) 1 .mean [(x, 0), (y, 1)] = .ok (.num (mixed (1 / 10) x 0)) := by
  have h := (C125_value (1 / 10) 1 [(x, (0 : Fin 2)), (y, 1)]).2.1 (by simp)
  simpa using h

example (x : Fin 2 → ℝ) : forward (1 / 10) (-100) .mean [(x, 0), (x, -100)] = .error .runtimeError :=
  (C125_outside _ 0 _ _).2 ⟨_, List.mem_cons_of_mem _ List.mem_cons_self, rfl⟩

end Verif.MusicLoss
