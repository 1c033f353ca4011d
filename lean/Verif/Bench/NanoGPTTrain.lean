import Mathlib.Tactic.Linarith
import Mathlib.Tactic.NormNum
import Mathlib.Tactic.Positivity
import Mathlib.Tactic.FieldSimp
import Verif.Bench.NanoGPT

/-!
# C112, C113: checkpoints and learning rate of nanoGPT
-/

namespace Verif.NanoGPT

/-! ### C112 -/

/-- Iteration `t` is the first of the evaluated iterations before `T` with the lowest validation loss. -/
structure FirstBest (E : ℕ) (val : ℕ → ℚ) (T t : ℕ) : Prop where
  lt : t < T
  evaluated : E ∣ t
  before : ∀ s < t, E ∣ s → val t < val s
  least : ∀ s < T, E ∣ s → val t ≤ val s

theorem FirstBest.unique {E : ℕ} {val : ℕ → ℚ} {T t u : ℕ} (h : FirstBest E val T t) (h' : FirstBest E val T u) : t = u := by
  rcases lt_trichotomy t u with hlt | rfl | hlt
  · exact absurd (h'.before t hlt h.evaluated) (not_lt.2 (h.least u h'.lt h'.evaluated))
  · rfl
  · exact absurd (h.before u hlt h'.evaluated) (not_lt.2 (h'.least t h.lt h.evaluated))

theorem ckpt_inv (E : ℕ) (val : ℕ → ℚ) (T : ℕ) :
    ((∀ s < T, E ∣ s → (10 : ℚ) ^ 9 ≤ val s) ∧ ckpt false E val T = ⟨10 ^ 9, none⟩) ∨
    ∃ t, FirstBest E val T t ∧ val t < 10 ^ 9 ∧ ckpt false E val T = ⟨val t, if 0 < t then some t else none⟩ := by
  induction T with
  | zero => exact Or.inl ⟨(fun s hs => by cases hs), rfl⟩
  | succ T ih =>
    unfold ckpt
    by_cases hE : T % E = 0
    · rw [if_pos hE]
      have hd : E ∣ T := Nat.dvd_of_mod_eq_zero hE
      rcases ih with ⟨hall, e⟩ | ⟨t, ht, hv, e⟩
      · rw [e]
        unfold evalStep
        simp only [Bool.false_eq_true, or_false]
        by_cases h : val T < 10 ^ 9
        · rw [if_pos h]
          refine Or.inr ⟨T, ⟨by omega, hd, fun s hs hes => h.trans_le (hall s hs hes), fun s hs hes => ?_⟩, h, rfl⟩
          rcases Nat.lt_succ_iff_lt_or_eq.1 hs with hs | rfl
          · exact (h.trans_le (hall s hs hes)).le
          · exact le_rfl
        · rw [if_neg h]
          refine Or.inl ⟨fun s hs hes => ?_, rfl⟩
          rcases Nat.lt_succ_iff_lt_or_eq.1 hs with hs | rfl
          · exact hall s hs hes
          · exact not_lt.1 h
      · rw [e]
        unfold evalStep
        simp only [Bool.false_eq_true, or_false]
        by_cases h : val T < val t
        · rw [if_pos h]
          refine Or.inr ⟨T, ⟨by omega, hd, fun s hs hes => h.trans_le (ht.least s hs hes), fun s hs hes => ?_⟩,
            h.trans hv, ?_⟩
          · rcases Nat.lt_succ_iff_lt_or_eq.1 hs with hs | rfl
            · exact (h.trans_le (ht.least s hs hes)).le
            · exact le_rfl
          · have : 0 < T := lt_of_le_of_lt (Nat.zero_le t) ht.lt
            simp [this]
        · rw [if_neg h]
          refine Or.inr ⟨t, ⟨by have := ht.lt; omega, ht.evaluated, ht.before, fun s hs hes => ?_⟩, hv, rfl⟩
          rcases Nat.lt_succ_iff_lt_or_eq.1 hs with hs | rfl
          · exact ht.least s hs hes
          · exact not_lt.1 h
    · rw [if_neg hE]
      have hnd : ¬ E ∣ T := fun h => hE (Nat.mod_eq_zero_of_dvd h)
      rcases ih with ⟨hall, e⟩ | ⟨t, ht, hv, e⟩
      · refine Or.inl ⟨fun s hs hes => ?_, e⟩
        rcases Nat.lt_succ_iff_lt_or_eq.1 hs with hs | rfl
        · exact hall s hs hes
        · exact absurd hes hnd
      · refine Or.inr ⟨t, ⟨by have := ht.lt; omega, ht.evaluated, ht.before, fun s hs hes => ?_⟩, hv, e⟩
        rcases Nat.lt_succ_iff_lt_or_eq.1 hs with hs | rfl
        · exact ht.least s hs hes
        · exact absurd hes hnd

/-- C112: the checkpoint on disk after `T` iterations (without `always_save_checkpoint`) is that of the first evaluation
with the lowest validation loss, if this is not the evaluation before the first step and the loss is below 1e9;
otherwise there is none. -/
theorem C112_best {E : ℕ} (val : ℕ → ℚ) (T t : ℕ) :
    (ckpt false E val T).saved = some t ↔ 0 < t ∧ FirstBest E val T t ∧ val t < 10 ^ 9 := by
  rcases ckpt_inv E val T with ⟨hall, e⟩ | ⟨u, hu, hv, e⟩
  · rw [e]
    constructor
    · intro h; cases h
    · rintro ⟨_, h, h2⟩
      exact absurd h2 (not_lt.2 (hall t h.lt h.evaluated))
  · rw [e]
    constructor
    · intro h
      simp only at h
      split_ifs at h with h0
      cases h
      exact ⟨h0, hu, hv⟩
    · rintro ⟨h0, h, _⟩
      rw [h.unique hu] at h0 ⊢
      simp [h0]

/-- C112: if no later evaluation improves on the untrained model, a whole training leaves no checkpoint. -/
theorem C112_none {E : ℕ} {val : ℕ → ℚ} (h : ∀ t, E ∣ t → val 0 ≤ val t) (T : ℕ) :
    (ckpt false E val T).saved = none := by
  cases hs : (ckpt false E val T).saved with
  | none => rfl
  | some t =>
    obtain ⟨h0, hb, _⟩ := (C112_best val T t).1 hs
    exact absurd (hb.before 0 h0 (dvd_zero E)) (not_lt.2 (h t hb.evaluated))

/-- C112: with `always_save_checkpoint` it is that of the last evaluation after the first step. -/
theorem C112_always {E : ℕ} (val : ℕ → ℚ) (T t : ℕ) :
    (ckpt true E val T).saved = some t ↔ 0 < t ∧ t < T ∧ E ∣ t ∧ ∀ s < T, E ∣ s → s ≤ t := by
  induction T with
  | zero =>
    constructor
    · intro h; cases h
    · rintro ⟨_, h, _⟩; cases h
  | succ T ih =>
    unfold ckpt
    by_cases hE : T % E = 0
    · have hd : E ∣ T := Nat.dvd_of_mod_eq_zero hE
      rw [if_pos hE]
      unfold evalStep
      simp only [or_true, if_true]
      by_cases h0 : 0 < T
      · rw [if_pos h0]
        constructor
        · intro h; cases h
          exact ⟨h0, by omega, hd, fun s hs _ => by omega⟩
        · rintro ⟨_, h1, _, h2⟩
          have := h2 T (by omega) hd
          rw [show T = t by omega]
      · rw [if_neg h0, ih]
        constructor
        · rintro ⟨h1, h2, _⟩; omega
        · rintro ⟨h1, h2, _⟩; omega
    · have hnd : ¬ E ∣ T := fun h => hE (Nat.mod_eq_zero_of_dvd h)
      rw [if_neg hE, ih]
      constructor
      · rintro ⟨h1, h2, h3, h4⟩
        refine ⟨h1, by omega, h3, fun s hs hes => ?_⟩
        rcases Nat.lt_succ_iff_lt_or_eq.1 hs with hs | rfl
        · exact h4 s hs hes
        · exact absurd hes hnd
      · rintro ⟨h1, h2, h3, h4⟩
        refine ⟨h1, ?_, h3, fun s hs hes => h4 s (by omega) hes⟩
        rcases Nat.lt_succ_iff_lt_or_eq.1 h2 with hs | rfl
        · exact hs
        · exact absurd h3 hnd

example : (ckpt false 2 (fun t => if t = 2 then 1 else if t = 4 then 2 else 3) 6).saved = some 2 := by decide +kernel
example : (ckpt false 2 (fun t => t) 6).saved = none :=
  C112_none (fun t _ => by simp) 6

/-! ### C113 -/

theorem ratio_bounds {warmup decay it : ℤ} (h1 : warmup ≤ it) (h2 : it ≤ decay) (h3 : decay - warmup ≠ 0) :
    (0 : ℝ) < (decay : ℝ) - warmup ∧ 0 ≤ ((it : ℝ) - warmup) / ((decay : ℝ) - warmup) ∧
      ((it : ℝ) - warmup) / ((decay : ℝ) - warmup) ≤ 1 := by
  have a : (warmup : ℝ) ≤ it := by exact_mod_cast h1
  have b : (it : ℝ) ≤ decay := by exact_mod_cast h2
  have c : (warmup : ℝ) < decay := by
    have : warmup < decay := by omega
    exact_mod_cast this
  have d : (0 : ℝ) < (decay : ℝ) - warmup := by linarith
  refine ⟨d, div_nonneg (by linarith) d.le, ?_⟩
  rw [div_le_one d]
  linarith

/-- C113: the learning rate of an iteration that is not negative is defined exactly unless the iteration ends a warm-up
of the same length as the decay. -/
theorem C113_defined (lr minLr : ℝ) (warmup decay : ℤ) {it : ℤ} (h0 : 0 ≤ it) :
    (∃ r, getLr lr minLr warmup decay it = .ok r) ↔ ¬ (it = warmup ∧ decay = warmup) := by
  unfold getLr
  by_cases h1 : it < warmup
  · rw [if_pos h1, if_neg (by omega)]
    exact ⟨fun _ h => by omega, fun _ => ⟨_, rfl⟩⟩
  · rw [if_neg h1]
    by_cases h2 : decay < it
    · rw [if_pos h2]
      exact ⟨fun _ h => by omega, fun _ => ⟨_, rfl⟩⟩
    · rw [if_neg h2]
      by_cases h3 : decay - warmup = 0
      · rw [if_pos h3]
        constructor
        · rintro ⟨r, h⟩; cases h
        · intro h; omega
      · rw [if_neg h3]
        obtain ⟨_, b, c⟩ := ratio_bounds (not_lt.1 h1) (not_lt.1 h2) h3
        simp only
        rw [if_pos ⟨b, c⟩]
        exact ⟨fun _ h => by omega, fun _ => ⟨_, rfl⟩⟩

/-- The value in the decay phase. -/
theorem getLr_decay (lr minLr : ℝ) {warmup decay it : ℤ} (h1 : warmup ≤ it) (h2 : it ≤ decay) (h3 : decay - warmup ≠ 0) :
    getLr lr minLr warmup decay it = .ok (minLr + 1 / 2 * (1 + Real.cos (Real.pi * (((it : ℝ) - warmup) /
      ((decay : ℝ) - warmup)))) * (lr - minLr)) := by
  obtain ⟨_, b, c⟩ := ratio_bounds h1 h2 h3
  unfold getLr
  rw [if_neg (by omega), if_neg (by omega), if_neg h3]
  simp only
  rw [if_pos ⟨b, c⟩]

/-- C113: the learning rate stays between 0 and the maximum, and from the end of the warm-up on it is at least the
minimum. -/
theorem C113_bounds {lr minLr r : ℝ} {warmup decay it : ℤ} (h0 : 0 ≤ it) (hm : 0 ≤ minLr) (hl : minLr ≤ lr)
    (h : getLr lr minLr warmup decay it = .ok r) : 0 ≤ r ∧ r ≤ lr ∧ (warmup ≤ it → minLr ≤ r) := by
  by_cases h1 : it < warmup
  · unfold getLr at h
    rw [if_pos h1, if_neg (by omega)] at h
    cases h
    have a : (0 : ℝ) ≤ it := by exact_mod_cast h0
    have b : (it : ℝ) < warmup := by exact_mod_cast h1
    have c : (0 : ℝ) < warmup := by linarith
    refine ⟨by have := hm.trans hl; positivity, ?_, fun h => by omega⟩
    rw [div_le_iff₀ c]
    have := hm.trans hl
    nlinarith
  · by_cases h2 : decay < it
    · unfold getLr at h
      rw [if_neg h1, if_pos h2] at h
      cases h
      exact ⟨hm, hl, fun _ => le_rfl⟩
    · by_cases h3 : decay - warmup = 0
      · unfold getLr at h
        rw [if_neg h1, if_neg h2, if_pos h3] at h
        cases h
      · rw [getLr_decay _ _ (not_lt.1 h1) (not_lt.1 h2) h3] at h
        cases h
        set c := Real.cos (Real.pi * (((it : ℝ) - warmup) / ((decay : ℝ) - warmup)))
        have c1 : c ≤ 1 := Real.cos_le_one _
        have c2 : -1 ≤ c := Real.neg_one_le_cos _
        have d : 0 ≤ lr - minLr := by linarith
        refine ⟨?_, ?_, fun _ => ?_⟩ <;> nlinarith

/-- C113: the maximum is reached exactly at the end of the warm-up and the minimum at the end of the decay, from where on it is
kept. -/
theorem C113_ends (lr minLr : ℝ) {warmup decay : ℤ} (h : warmup < decay) :
    getLr lr minLr warmup decay warmup = .ok lr ∧
    ∀ it, decay ≤ it → getLr lr minLr warmup decay it = .ok minLr := by
  constructor
  · rw [getLr_decay _ _ le_rfl h.le (by omega)]
    simp only [sub_self, zero_div, mul_zero, Real.cos_zero]
    congr 1
    ring
  · intro it hit
    rcases eq_or_lt_of_le hit with rfl | hlt
    · rw [getLr_decay _ _ h.le le_rfl (by omega)]
      have : (0 : ℝ) < (decay : ℝ) - warmup := by
        have : (warmup : ℝ) < decay := by exact_mod_cast h
        linarith
      rw [div_self this.ne', mul_one, Real.cos_pi]
      simp
    · unfold getLr
      rw [if_neg (by omega), if_pos hlt]

/-- C113: it rises through the warm-up and falls (weakly) from then on. -/
theorem C113_monotone {lr minLr r r' : ℝ} {warmup decay it it' : ℤ} (h0 : 0 ≤ it) (hlr : 0 ≤ lr) (hl : minLr ≤ lr)
    (hlt : it ≤ it') (h : getLr lr minLr warmup decay it = .ok r) (h' : getLr lr minLr warmup decay it' = .ok r') :
    (it' < warmup → r ≤ r') ∧ (warmup ≤ it → r' ≤ r) := by
  constructor
  · intro hw
    unfold getLr at h h'
    rw [if_pos (by omega), if_neg (by omega)] at h h'
    cases h; cases h'
    have c : (0 : ℝ) < warmup := by
      have : 0 < warmup := by omega
      exact_mod_cast this
    have : (it : ℝ) ≤ it' := by exact_mod_cast hlt
    exact div_le_div_of_nonneg_right (mul_le_mul_of_nonneg_left this hlr) c.le
  · intro hw
    have d : 0 ≤ lr - minLr := by linarith
    by_cases h2 : decay < it
    · unfold getLr at h h'
      rw [if_neg (by omega), if_pos (by omega)] at h h'
      cases h; cases h'
      exact le_rfl
    · by_cases h3 : decay - warmup = 0
      · unfold getLr at h
        rw [if_neg (by omega), if_neg h2, if_pos h3] at h
        cases h
      · obtain ⟨p, b, c⟩ := ratio_bounds hw (not_lt.1 h2) h3
        rw [getLr_decay _ _ hw (not_lt.1 h2) h3] at h
        cases h
        by_cases h4 : decay < it'
        · unfold getLr at h'
          rw [if_neg (by omega), if_pos h4] at h'
          cases h'
          have := Real.neg_one_le_cos (Real.pi * (((it : ℝ) - warmup) / ((decay : ℝ) - warmup)))
          nlinarith
        · obtain ⟨_, b', c'⟩ := ratio_bounds (hw.trans hlt) (not_lt.1 h4) h3
          rw [getLr_decay _ _ (hw.trans hlt) (not_lt.1 h4) h3] at h'
          cases h'
          have hle : ((it : ℝ) - warmup) / ((decay : ℝ) - warmup) ≤ ((it' : ℝ) - warmup) / ((decay : ℝ) - warmup) := by
            have : (it : ℝ) ≤ it' := by exact_mod_cast hlt
            exact div_le_div_of_nonneg_right (by linarith) p.le
          have hc := Real.cos_le_cos_of_nonneg_of_le_pi (mul_nonneg Real.pi_pos.le b)
            (by have := Real.pi_pos; nlinarith) (mul_le_mul_of_nonneg_left hle Real.pi_pos.le)
          nlinarith

example : ∃ r, getLr 1 (1 / 10) 100 5000 2550 = .ok r ∧ r = 11 / 20 := by
  refine ⟨_, getLr_decay _ _ (by norm_num) (by norm_num) (by norm_num), ?_⟩
  have : Real.pi * (((2550 : ℤ) - (100 : ℤ) : ℝ) / ((5000 : ℤ) - (100 : ℤ))) = Real.pi / 2 := by
    push_cast; ring
  rw [this, Real.cos_pi_div_two]
  norm_num

end Verif.NanoGPT
