import Verif.Projection.JLProps
import Mathlib.Algebra.Order.BigOperators.Ring.Finset
import Mathlib.Tactic.Linarith
import Mathlib.Tactic.Positivity

/-!
# C155: how far projected inner products are from the true ones
-/

namespace Verif.Projection

open Finset

variable {d p : ℕ}

/-! ### Specification -/

/-- `|x|² |y|² + ⟨x, y⟩² - 2 ∑ xᵢ² yᵢ²`. -/
noncomputable def spread (x y : Fin d → ℝ) : ℝ :=
  (∑ a, x a ^ 2) * (∑ a, y a ^ 2) + (∑ a, x a * y a) ^ 2 - 2 * ∑ a, x a ^ 2 * y a ^ 2

/-! ### Helper lemmas -/

/-- A function of the signs that changes its sign when one of them is flipped has sum 0. -/
lemma sum_flip {ι : Type} [Fintype ι] [DecidableEq ι] (F : (ι → Bool) → ℝ) (a : ι) (h : ∀ S, F (Function.update S a (!S a)) = -F S) :
    ∑ S, F S = 0 := by
  have hinv : ∀ S : ι → Bool, Function.update (Function.update S a (!S a)) a (!(Function.update S a (!S a)) a) = S := by
    intro S; simp
  have : ∑ S, F S = ∑ S, -F S := by
    apply Finset.sum_nbij' (fun S => Function.update S a (!S a)) (fun S => Function.update S a (!S a))
    · simp
    · simp
    · intro S _; exact hinv S
    · intro S _; exact hinv S
    · intro S _
      rw [h]; ring
  rw [Finset.sum_neg_distrib] at this
  linarith

/-- Averages of products of two pairs of different signs. -/
lemma sum_four {ι : Type} [Fintype ι] [DecidableEq ι] (u v u' v' : ι) (h : u ≠ v) (h' : u' ≠ v') :
    ∑ S : ι → Bool, sgn (S u) * sgn (S v) * (sgn (S u') * sgn (S v')) =
      (2 : ℝ) ^ Fintype.card ι * ((if u = u' ∧ v = v' then 1 else 0) + if u = v' ∧ v = u' then 1 else 0) := by
  by_cases h1 : u = u' ∧ v = v'
  · obtain ⟨rfl, rfl⟩ := h1
    have h2 : ¬ (u = v ∧ v = u) := fun e => h e.1
    rw [if_pos ⟨rfl, rfl⟩, if_neg h2]
    have : ∀ S : ι → Bool, sgn (S u) * sgn (S v) * (sgn (S u) * sgn (S v)) = 1 := by
      intro S
      rw [mul_mul_mul_comm, sgn_mul_self, sgn_mul_self, one_mul]
    simp [this, Finset.card_univ]
  · by_cases h2 : u = v' ∧ v = u'
    · obtain ⟨rfl, rfl⟩ := h2
      rw [if_neg h1, if_pos ⟨rfl, rfl⟩]
      have : ∀ S : ι → Bool, sgn (S u) * sgn (S v) * (sgn (S v) * sgn (S u)) = 1 := by
        intro S
        rw [mul_comm (sgn (S v)) (sgn (S u)), mul_mul_mul_comm, sgn_mul_self, sgn_mul_self, one_mul]
      simp [this, Finset.card_univ]
    · rw [if_neg h1, if_neg h2, add_zero, mul_zero]
      by_cases hu : u = u' ∨ u = v'
      · have hv : v ≠ u' ∧ v ≠ v' := by
          rcases hu with rfl | rfl
          · exact ⟨h.symm, fun e => h1 ⟨rfl, e⟩⟩
          · exact ⟨fun e => h2 ⟨rfl, e⟩, h.symm⟩
        refine sum_flip _ v fun S => ?_
        rw [Function.update_of_ne h, Function.update_self, Function.update_of_ne hv.1.symm, Function.update_of_ne hv.2.symm, sgn_not]
        ring
      · push Not at hu
        refine sum_flip _ u fun S => ?_
        rw [Function.update_self, Function.update_of_ne h.symm, Function.update_of_ne hu.1.symm, Function.update_of_ne hu.2.symm, sgn_not]
        ring

/-- The sum over ordered pairs of different indices. -/
noncomputable def offDiag (f : Fin d → Fin d → ℝ) : ℝ := ∑ a, ∑ b, if a = b then 0 else f a b

lemma offDiag_eq (f : Fin d → Fin d → ℝ) : offDiag f = (∑ a, ∑ b, f a b) - ∑ a, f a a := by
  unfold offDiag
  rw [← Finset.sum_sub_distrib]
  refine Finset.sum_congr rfl fun a _ => ?_
  have h1 := Finset.sum_erase_add univ (fun b => if a = b then 0 else f a b) (Finset.mem_univ a)
  have h2 := Finset.sum_erase_add univ (fun b => f a b) (Finset.mem_univ a)
  have h3 : ∑ b ∈ univ.erase a, (if a = b then 0 else f a b) = ∑ b ∈ univ.erase a, f a b :=
    Finset.sum_congr rfl fun b hb => if_neg (Finset.ne_of_mem_erase hb).symm
  rw [← h1, ← h2, h3, if_pos rfl]
  ring

lemma spread_eq (x y : Fin d → ℝ) : offDiag (fun a b => x a ^ 2 * y b ^ 2 + x a * y a * (x b * y b)) = spread x y := by
  rw [offDiag_eq]
  unfold spread
  simp only [Finset.sum_add_distrib, ← Finset.mul_sum, ← Finset.sum_mul]
  have : ∑ a, x a * y a * (x a * y a) = ∑ a, x a ^ 2 * y a ^ 2 := Finset.sum_congr rfl fun a _ => by ring
  rw [this]
  ring

lemma spread_le (x y : Fin d → ℝ) : spread x y ≤ 2 * ((∑ a, x a ^ 2) * ∑ a, y a ^ 2) := by
  have h1 := Finset.sum_mul_sq_le_sq_mul_sq univ x y
  have h2 : 0 ≤ ∑ a, x a ^ 2 * y a ^ 2 := Finset.sum_nonneg fun a _ => by positivity
  unfold spread
  linarith

/-- The deviation of the projected inner product, for the Rademacher projection. -/
lemma rademacher_dev (block : ℕ) (seed : ℤ) (hp : 0 < p) (x y : Fin d → ℝ) (S : Fin d × Fin p → Bool) :
    rowDot (idealRow (signProjector block seed S) 0 x) (idealRow (signProjector block seed S) 0 y) - ∑ a, x a * y a =
      (∑ j : Fin p, offDiag fun a b => x a * y b * (sgn (S (a, j)) * sgn (S (b, j)))) / p := by
  have hrow : ∀ z, idealRow (signProjector block seed S) 0 z = (List.range p).map (idealEntry (signProjector block seed S) 0 z) := fun z => rfl
  rw [hrow, hrow, rowDot_map]
  rw [show ((List.range p).map fun j => idealEntry (signProjector block seed S) 0 x j * idealEntry (signProjector block seed S) 0 y j).sum
    = ∑ j ∈ Finset.range p, idealEntry (signProjector block seed S) 0 x j * idealEntry (signProjector block seed S) 0 y j from rfl,
    Finset.sum_range]
  have hp' : (p : ℝ) ≠ 0 := by exact_mod_cast hp.ne'
  have hj : ∀ j : Fin p, idealEntry (signProjector block seed S) 0 x j * idealEntry (signProjector block seed S) 0 y j =
      ((offDiag fun a b => x a * y b * (sgn (S (a, j)) * sgn (S (b, j)))) + ∑ a, x a * y a) / p := by
    intro j
    rw [signProjector_entry, signProjector_entry, div_mul_div_comm, Real.mul_self_sqrt (by positivity), offDiag_eq, Finset.sum_mul_sum]
    congr 1
    have h1 : ∑ a, x a * y a * (sgn (S (a, j)) * sgn (S (a, j))) = ∑ a, x a * y a := by simp only [sgn_mul_self, mul_one]
    rw [h1, sub_add_cancel]
    exact Finset.sum_congr rfl fun a _ => Finset.sum_congr rfl fun b _ => by ring
  simp only [hj]
  rw [← Finset.sum_div, Finset.sum_add_distrib, Finset.sum_const, Finset.card_univ, Fintype.card_fin, nsmul_eq_mul, add_div,
    mul_div_cancel_left₀ _ hp', add_sub_cancel_right]

lemma offDiag_congr {f g : Fin d → Fin d → ℝ} (h : ∀ a b, a ≠ b → f a b = g a b) : offDiag f = offDiag g := by
  unfold offDiag
  refine Finset.sum_congr rfl fun a _ => Finset.sum_congr rfl fun b _ => ?_
  split_ifs with hab
  · rfl
  · exact h a b hab

lemma offDiag_sum {ι : Type} (s : Finset ι) (f : ι → Fin d → Fin d → ℝ) : ∑ i ∈ s, offDiag (f i) = offDiag fun a b => ∑ i ∈ s, f i a b := by
  unfold offDiag
  rw [Finset.sum_comm]
  refine Finset.sum_congr rfl fun a _ => ?_
  rw [Finset.sum_comm]
  refine Finset.sum_congr rfl fun b _ => ?_
  split_ifs
  · simp
  · rfl

lemma offDiag_mul_left (c : ℝ) (f : Fin d → Fin d → ℝ) : c * offDiag f = offDiag fun a b => c * f a b := by
  unfold offDiag
  simp only [Finset.mul_sum, mul_ite, mul_zero]

lemma offDiag_mul (f g : Fin d → Fin d → ℝ) : offDiag f * offDiag g = offDiag fun a b => offDiag fun a' b' => f a b * g a' b' := by
  rw [mul_comm, offDiag_mul_left]
  refine offDiag_congr fun a b _ => ?_
  rw [mul_comm, offDiag_mul_left]

lemma offDiag_pick (a b : Fin d) (h : a ≠ b) (f : Fin d → Fin d → ℝ) :
    (offDiag fun a' b' => f a' b' * ((if a = a' ∧ b = b' then 1 else 0) + if a = b' ∧ b = a' then 1 else 0)) = f a b + f b a := by
  unfold offDiag
  have : ∀ a' b' : Fin d, (if a' = b' then (0 : ℝ) else f a' b' * ((if a = a' ∧ b = b' then 1 else 0) + if a = b' ∧ b = a' then 1 else 0)) =
      (if a = a' then if b = b' then f a b else 0 else 0) + if b = a' then if a = b' then f b a else 0 else 0 := by
    intro a' b'
    by_cases h1 : a = a'
    · subst h1
      by_cases h2 : b = b'
      · subst h2
        simp [h, h.symm]
      · simp [h2, h.symm]
    · by_cases h3 : b = a'
      · subst h3
        by_cases h4 : a = b'
        · subst h4
          simp [h, h.symm]
        · simp [h, h4]
      · simp [h1, h3]
  simp only [this, Finset.sum_add_distrib]
  congr 1
  · rw [Finset.sum_eq_single a (fun x _ hx => by simp [hx.symm]) (by simp)]
    simp
  · rw [Finset.sum_eq_single b (fun x _ hx => by simp [hx.symm]) (by simp)]
    simp

/-- The sum of squared deviations over all sign matrices. -/
lemma rademacher_var (block : ℕ) (seed : ℤ) (hp : 0 < p) (x y : Fin d → ℝ) :
    ∑ S : Fin d × Fin p → Bool,
      (rowDot (idealRow (signProjector block seed S) 0 x) (idealRow (signProjector block seed S) 0 y) - ∑ a, x a * y a) ^ 2 =
      2 ^ (d * p) * (spread x y / p) := by
  simp only [rademacher_dev block seed hp x y]
  have hp' : (p : ℝ) ≠ 0 := by exact_mod_cast hp.ne'
  have hpair : ∀ j j' : Fin p, ∑ S : Fin d × Fin p → Bool,
      (offDiag fun a b => x a * y b * (sgn (S (a, j)) * sgn (S (b, j)))) * (offDiag fun a b => x a * y b * (sgn (S (a, j')) * sgn (S (b, j')))) =
      if j = j' then 2 ^ (d * p) * spread x y else 0 := by
    intro j j'
    simp only [offDiag_mul, offDiag_sum]
    have hin : ∀ a b : Fin d, a ≠ b → (offDiag fun a' b' => ∑ S : Fin d × Fin p → Bool,
        x a * y b * (sgn (S (a, j)) * sgn (S (b, j))) * (x a' * y b' * (sgn (S (a', j')) * sgn (S (b', j'))))) =
        if j = j' then 2 ^ (d * p) * (x a ^ 2 * y b ^ 2 + x a * y a * (x b * y b)) else 0 := by
      intro a b hab
      have hS : ∀ a' b' : Fin d, a' ≠ b' → ∑ S : Fin d × Fin p → Bool,
          x a * y b * (sgn (S (a, j)) * sgn (S (b, j))) * (x a' * y b' * (sgn (S (a', j')) * sgn (S (b', j')))) =
          if j = j' then 2 ^ (d * p) * (x a * y b) * (x a' * y b') * ((if a = a' ∧ b = b' then 1 else 0) + if a = b' ∧ b = a' then 1 else 0) else 0 := by
        intro a' b' hab'
        have h4 := sum_four (a, j) (b, j) (a', j') (b', j') (by simpa using hab) (by simpa using hab')
        simp only [Prod.mk.injEq, Fintype.card_prod, Fintype.card_fin] at h4
        have e : ∀ S : Fin d × Fin p → Bool, x a * y b * (sgn (S (a, j)) * sgn (S (b, j))) * (x a' * y b' * (sgn (S (a', j')) * sgn (S (b', j')))) =
            x a * y b * (x a' * y b') * (sgn (S (a, j)) * sgn (S (b, j)) * (sgn (S (a', j')) * sgn (S (b', j')))) := fun S => by ring
        simp only [e]
        rw [← Finset.mul_sum, h4]
        by_cases hj : j = j'
        · simp only [hj, and_true, if_true]
          ring
        · simp [hj]
      rw [offDiag_congr hS]
      by_cases hj : j = j'
      · simp only [hj, if_true]
        rw [offDiag_pick a b hab fun a' b' => 2 ^ (d * p) * (x a * y b) * (x a' * y b')]
        ring
      · simp only [hj, if_false]
        simp [offDiag]
    rw [offDiag_congr hin]
    by_cases hj : j = j'
    · simp only [hj, if_true]
      rw [← offDiag_mul_left, spread_eq]
    · simp only [hj, if_false]
      simp [offDiag]
  have hsq : ∀ S : Fin d × Fin p → Bool, ((∑ j : Fin p, offDiag fun a b => x a * y b * (sgn (S (a, j)) * sgn (S (b, j)))) / p) ^ 2 =
      (∑ j : Fin p, ∑ j' : Fin p, (offDiag fun a b => x a * y b * (sgn (S (a, j)) * sgn (S (b, j)))) *
        (offDiag fun a b => x a * y b * (sgn (S (a, j')) * sgn (S (b, j'))))) / p ^ 2 := by
    intro S
    rw [div_pow, pow_two, Finset.sum_mul_sum]
  simp only [hsq]
  rw [← Finset.sum_div, Finset.sum_comm]
  have : ∀ j : Fin p, ∑ S : Fin d × Fin p → Bool, ∑ j' : Fin p, (offDiag fun a b => x a * y b * (sgn (S (a, j)) * sgn (S (b, j)))) *
      (offDiag fun a b => x a * y b * (sgn (S (a, j')) * sgn (S (b, j')))) = 2 ^ (d * p) * spread x y := by
    intro j
    rw [Finset.sum_comm]
    simp only [hpair]
    simp
  simp only [this, Finset.sum_const, Finset.card_univ, Fintype.card_fin, nsmul_eq_mul]
  field_simp

/-- Chebyshev's inequality by counting. -/
lemma chebyshev {Ω : Type} [Fintype Ω] (D : Ω → ℝ) (ε : ℝ) (hε : 0 ≤ ε) (total : ℝ) (h : ∑ ω, D ω ^ 2 = total) :
    (#{ω | ε ≤ |D ω|} : ℝ) * ε ^ 2 ≤ total := by
  rw [← h, ← nsmul_eq_mul]
  calc #{ω | ε ≤ |D ω|} • ε ^ 2 ≤ ∑ ω with ε ≤ |D ω|, D ω ^ 2 := by
        refine Finset.card_nsmul_le_sum _ _ _ fun ω hω => ?_
        rw [Finset.mem_filter] at hω
        rw [← sq_abs (D ω)]
        exact pow_le_pow_left₀ hε hω.2 2
    _ ≤ ∑ ω, D ω ^ 2 := Finset.sum_le_sum_of_subset_of_nonneg (Finset.filter_subset _ _) fun _ _ _ => sq_nonneg _

/-- The deviation of the projected inner product, for the sparse projection. -/
lemma sjlt_dev (x y : Fin d → ℝ) (b : Fin d → Fin p) (S : Fin d → Bool) :
    rowDot (sjRow p (fun i => if h : i < d then b ⟨i, h⟩ else 0) (fun i => if h : i < d then sgn (S ⟨i, h⟩) else 1) (List.ofFn x))
        (sjRow p (fun i => if h : i < d then b ⟨i, h⟩ else 0) (fun i => if h : i < d then sgn (S ⟨i, h⟩) else 1) (List.ofFn y)) - ∑ a, x a * y a =
      offDiag fun a c => (if b a = b c then 1 else 0) * (x a * y c) * (sgn (S a) * sgn (S c)) := by
  rw [sjlt_row, offDiag_eq]
  congr 1
  refine Finset.sum_congr rfl fun a _ => ?_
  rw [if_pos rfl, sgn_mul_self]
  ring

/-- How often two coordinates get the same bucket. -/
lemma bucket_count (hp : 0 < p) (a c : Fin d) (h : a ≠ c) : (p : ℝ) * ∑ b : Fin d → Fin p, (if b a = b c then (1 : ℝ) else 0) = p ^ d := by
  have : NeZero p := ⟨hp.ne'⟩
  have hk : ∀ k : Fin p, ∑ b : Fin d → Fin p, (if b a = b c + k then (1 : ℝ) else 0) = ∑ b : Fin d → Fin p, if b a = b c then (1 : ℝ) else 0 := by
    intro k
    apply Finset.sum_nbij' (fun b => Function.update b a (b a - k)) (fun b => Function.update b a (b a + k))
    · simp
    · simp
    · intro b _; simp
    · intro b _; simp
    · intro b _
      rw [Function.update_self, Function.update_of_ne h.symm]
      simp only [sub_eq_iff_eq_add]
  have h1 : ∑ k : Fin p, ∑ b : Fin d → Fin p, (if b a = b c + k then (1 : ℝ) else 0) = p ^ d := by
    rw [Finset.sum_comm]
    have : ∀ b : Fin d → Fin p, ∑ k : Fin p, (if b a = b c + k then (1 : ℝ) else 0) = 1 := by
      intro b
      rw [Finset.sum_eq_single (b a - b c)]
      · simp
      · intro k _ hne
        rw [if_neg]
        intro e
        exact hne (by rw [e, add_sub_cancel_left])
      · simp
    simp [this, Finset.card_univ]
  rw [← h1]
  simp [hk]

/-- The sum of squared deviations over all buckets and signs. -/
lemma sjlt_var (hp : 0 < p) (x y : Fin d → ℝ) :
    ∑ b : Fin d → Fin p, ∑ S : Fin d → Bool,
      (rowDot (sjRow p (fun i => if h : i < d then b ⟨i, h⟩ else 0) (fun i => if h : i < d then sgn (S ⟨i, h⟩) else 1) (List.ofFn x))
        (sjRow p (fun i => if h : i < d then b ⟨i, h⟩ else 0) (fun i => if h : i < d then sgn (S ⟨i, h⟩) else 1) (List.ofFn y)) - ∑ a, x a * y a) ^ 2 =
      p ^ d * 2 ^ d * (spread x y / p) := by
  simp only [sjlt_dev]
  have hp' : (p : ℝ) ≠ 0 := by exact_mod_cast hp.ne'
  have hS : ∀ b : Fin d → Fin p, ∑ S : Fin d → Bool, (offDiag fun a c => (if b a = b c then 1 else 0) * (x a * y c) * (sgn (S a) * sgn (S c))) ^ 2 =
      offDiag fun a c => 2 ^ d * (x a ^ 2 * y c ^ 2 + x a * y a * (x c * y c)) * if b a = b c then 1 else 0 := by
    intro b
    simp only [pow_two (offDiag _), offDiag_mul, offDiag_sum]
    refine offDiag_congr fun a c hac => ?_
    have h4 : ∀ a' c' : Fin d, a' ≠ c' → ∑ S : Fin d → Bool, (if b a = b c then 1 else 0) * (x a * y c) * (sgn (S a) * sgn (S c)) *
        ((if b a' = b c' then 1 else 0) * (x a' * y c') * (sgn (S a') * sgn (S c'))) =
        (2 ^ d * (if b a = b c then 1 else 0) * (x a * y c) * ((if b a' = b c' then 1 else 0) * (x a' * y c'))) *
          ((if a = a' ∧ c = c' then 1 else 0) + if a = c' ∧ c = a' then 1 else 0) := by
      intro a' c' hac'
      have e : ∀ S : Fin d → Bool, (if b a = b c then (1 : ℝ) else 0) * (x a * y c) * (sgn (S a) * sgn (S c)) *
          ((if b a' = b c' then 1 else 0) * (x a' * y c') * (sgn (S a') * sgn (S c'))) =
          (if b a = b c then 1 else 0) * (x a * y c) * ((if b a' = b c' then 1 else 0) * (x a' * y c')) *
            (sgn (S a) * sgn (S c) * (sgn (S a') * sgn (S c'))) := fun S => by ring
      simp only [e]
      rw [← Finset.mul_sum, sum_four a c a' c' hac hac', Fintype.card_fin]
      ring
    rw [offDiag_congr h4,
      offDiag_pick a c hac fun a' c' => 2 ^ d * (if b a = b c then 1 else 0) * (x a * y c) * ((if b a' = b c' then 1 else 0) * (x a' * y c'))]
    by_cases hb : b a = b c
    · simp only [hb, if_true]
      ring
    · simp [hb]
  simp only [hS, offDiag_sum]
  have hb : ∀ a c : Fin d, a ≠ c → ∑ b : Fin d → Fin p, 2 ^ d * (x a ^ 2 * y c ^ 2 + x a * y a * (x c * y c)) * (if b a = b c then (1 : ℝ) else 0) =
      p ^ d * 2 ^ d / p * (x a ^ 2 * y c ^ 2 + x a * y a * (x c * y c)) := by
    intro a c hac
    rw [← Finset.mul_sum, ← bucket_count hp a c hac]
    field_simp
  rw [offDiag_congr hb, ← offDiag_mul_left, spread_eq]
  ring

/-- Few draws are off by more than `ε` times the norms, if the mean of the squared deviations is `spread / p`. -/
lemma few_bad {Ω : Type} [Fintype Ω] (hp : 0 < p) (x y : Fin d → ℝ) (D : Ω → ℝ) (N : ℝ) (hN : 0 ≤ N) (h : ∑ ω, D ω ^ 2 = N * (spread x y / p)) (ε : ℝ)
    (hε : 0 ≤ ε) : (#{ω | ε * (Real.sqrt (∑ a, x a ^ 2) * Real.sqrt (∑ a, y a ^ 2)) < |D ω|} : ℝ) * (p * ε ^ 2) ≤ 2 * N := by
  set X := ∑ a, x a ^ 2 with hX
  set Y := ∑ a, y a ^ 2 with hY
  have hX0 : 0 ≤ X := Finset.sum_nonneg fun a _ => sq_nonneg _
  have hY0 : 0 ≤ Y := Finset.sum_nonneg fun a _ => sq_nonneg _
  have hp' : (0 : ℝ) < p := by exact_mod_cast hp
  have hle : ∑ ω, D ω ^ 2 ≤ N * (2 * (X * Y) / p) := by
    rw [h]
    exact mul_le_mul_of_nonneg_left ((div_le_div_iff_of_pos_right hp').2 (spread_le x y)) hN
  rcases (mul_nonneg hX0 hY0).eq_or_lt with h0 | h0
  · rw [← h0] at hle
    have hz : ∑ ω, D ω ^ 2 = 0 := le_antisymm (by simpa using hle) (Finset.sum_nonneg fun _ _ => sq_nonneg _)
    have hD : ∀ ω, D ω = 0 := fun ω => by
      have := (Finset.sum_eq_zero_iff_of_nonneg fun _ _ => sq_nonneg _).1 hz ω (Finset.mem_univ _)
      exact pow_eq_zero_iff (two_ne_zero) |>.1 this
    have : ({ω | ε * (Real.sqrt X * Real.sqrt Y) < |D ω|} : Finset Ω) = ∅ := by
      refine Finset.filter_eq_empty_iff.2 fun ω _ => ?_
      rw [hD, abs_zero, not_lt]
      positivity
    rw [this]
    simp only [Finset.card_empty, Nat.cast_zero, zero_mul]
    positivity
  · have hc := chebyshev D (ε * (Real.sqrt X * Real.sqrt Y)) (by positivity) _ rfl
    have hsq : (ε * (Real.sqrt X * Real.sqrt Y)) ^ 2 = ε ^ 2 * (X * Y) := by
      rw [mul_pow, mul_pow, Real.sq_sqrt hX0, Real.sq_sqrt hY0]
    have hsub : (#{ω | ε * (Real.sqrt X * Real.sqrt Y) < |D ω|} : ℝ) ≤ #{ω | ε * (Real.sqrt X * Real.sqrt Y) ≤ |D ω|} := by
      refine Nat.cast_le.2 (Finset.card_le_card fun ω hω => ?_)
      exact Finset.mem_filter.2 ⟨mem_univ _, (Finset.mem_filter.1 hω).2.le⟩
    rw [hsq] at hc
    have h3 : (#{ω | ε * (Real.sqrt X * Real.sqrt Y) < |D ω|} : ℝ) * (ε ^ 2 * (X * Y)) ≤ N * (2 * (X * Y) / p) :=
      (mul_le_mul_of_nonneg_right hsub (by positivity)).trans (hc.trans hle)
    have h4 : (#{ω | ε * (Real.sqrt X * Real.sqrt Y) < |D ω|} : ℝ) * (p * ε ^ 2) * (X * Y) ≤ 2 * N * (X * Y) := by
      have h5 := mul_le_mul_of_nonneg_right h3 hp'.le
      have e1 : N * (2 * (X * Y) / p) * p = 2 * N * (X * Y) := by field_simp
      rw [e1] at h5
      linarith [h5]
    exact le_of_mul_le_mul_right h4 h0

/-! ### C155 -/

/-- **C155** (Rademacher). The mean over all sign matrices of the squared difference between the inner product of two rows returned by `BasicProjector.project`
and the true one is `(|x|² |y|² + ⟨x, y⟩² - 2 ∑ xᵢ² yᵢ²) / p`, after any history of calls as in `C78_rademacher_unbiased`. -/
theorem C155_rademacher (block : ℕ) (hb : 0 < block) (seed : ℤ) (hp : 0 < p) (x y : Fin d → ℝ) :
    ∃ u v : (Fin d × Fin p → Bool) → List ℝ,
      (∀ S, ∃ st0, (signProjector block seed S).init = .ok st0 ∧ ∀ h, ¬ (p ≤ block ∧ Lost 0 h 0) →
        ((signProjector block seed S).project ((signProjector block seed S).run st0 h) [x, y] 0).2 = .ok [u S, v S]) ∧
      ∑ S, (rowDot (u S) (v S) - ∑ a, x a * y a) ^ 2 = 2 ^ (d * p) *
        (((∑ a, x a ^ 2) * (∑ a, y a ^ 2) + (∑ a, x a * y a) ^ 2 - 2 * ∑ a, x a ^ 2 * y a ^ 2) / p) := by
  refine ⟨fun S => idealRow (signProjector block seed S) 0 x, fun S => idealRow (signProjector block seed S) 0 y, fun S => ?_,
    rademacher_var block seed hp x y⟩
  obtain ⟨st0, h0, hh⟩ := C28_history (signProjector block seed S) (Or.inr (Or.inl rfl)) hp hb
  refine ⟨st0, h0, fun h hl => (hh h [x, y] 0).2 fun he => hl ?_⟩
  exact ((hh h [x, y] 0).1.1 he).2

/-- **C155** (SJLT). The same mean for the sparse projection. -/
theorem C155_sjlt (seed mult e : ℤ) (he : e ≠ -1) (hp : 0 < p) (x y : Fin d → ℝ) :
    ∃ u v : (Fin d → Fin p) → (Fin d → Bool) → List ℝ,
      (∀ b S h, ((sjProjector seed mult b S).project ((sjProjector seed mult b S).run (sjProjector seed mult b S).init h) [x, y] e).2 =
        .ok (.rows [u b S, v b S])) ∧
      ∑ b, ∑ S, (rowDot (u b S) (v b S) - ∑ a, x a * y a) ^ 2 = p ^ d * 2 ^ d *
        (((∑ a, x a ^ 2) * (∑ a, y a ^ 2) + (∑ a, x a * y a) ^ 2 - 2 * ∑ a, x a ^ 2 * y a ^ 2) / p) := by
  refine ⟨fun b S => cIdealRow (sjProjector seed mult b S) e x, fun b S => cIdealRow (sjProjector seed mult b S) e y, fun b S h => ?_, ?_⟩
  · exact (C77_cuda_history (sjProjector seed mult b S) (fun hk => by simp [sjProjector] at hk) h [x, y] e).1 (Or.inr he)
  · exact sjlt_var hp x y

/-- **C155** (all scores). Project `n` training rows and `m` test rows with one Rademacher projector. Among the sign matrices, the share of those for which some
inner product of a projected training row with a projected test row is off by more than `ε` times the norms is at most `2 n m / (p ε²)`. -/
theorem C155_all_scores (block : ℕ) (hb : 0 < block) (seed : ℤ) (hp : 0 < p) (n m : ℕ) (xs : Fin n → Fin d → ℝ) (ys : Fin m → Fin d → ℝ) (ε : ℝ)
    (hε : 0 ≤ ε) :
    ∃ (u : (Fin d × Fin p → Bool) → Fin n → List ℝ) (v : (Fin d × Fin p → Bool) → Fin m → List ℝ),
      (∀ S, ∃ st0, (signProjector block seed S).init = .ok st0 ∧ ∀ h, ¬ (p ≤ block ∧ Lost 0 h 0) →
        ((signProjector block seed S).project ((signProjector block seed S).run st0 h) (List.ofFn xs) 0).2 = .ok (List.ofFn (u S)) ∧
        ((signProjector block seed S).project ((signProjector block seed S).run st0 h) (List.ofFn ys) 0).2 = .ok (List.ofFn (v S))) ∧
      (#{S | ∃ i j, ε * (Real.sqrt (∑ a, xs i a ^ 2) * Real.sqrt (∑ a, ys j a ^ 2)) < |rowDot (u S i) (v S j) - ∑ a, xs i a * ys j a|} : ℝ) * (p * ε ^ 2) ≤
        2 * (n * m) * 2 ^ (d * p) := by
  classical
  refine ⟨fun S i => idealRow (signProjector block seed S) 0 (xs i), fun S j => idealRow (signProjector block seed S) 0 (ys j), fun S => ?_, ?_⟩
  · obtain ⟨st0, h0, hh⟩ := C28_history (signProjector block seed S) (Or.inr (Or.inl rfl)) hp hb
    refine ⟨st0, h0, fun h hl => ⟨?_, ?_⟩⟩
    · rw [(hh h (List.ofFn xs) 0).2 fun he => hl ((hh h (List.ofFn xs) 0).1.1 he).2, List.map_ofFn]
      rfl
    · rw [(hh h (List.ofFn ys) 0).2 fun he => hl ((hh h (List.ofFn ys) 0).1.1 he).2, List.map_ofFn]
      rfl
  · set bad : Fin n → Fin m → Finset (Fin d × Fin p → Bool) := fun i j =>
      {S | ε * (Real.sqrt (∑ a, xs i a ^ 2) * Real.sqrt (∑ a, ys j a ^ 2)) <
        |rowDot (idealRow (signProjector block seed S) 0 (xs i)) (idealRow (signProjector block seed S) 0 (ys j)) - ∑ a, xs i a * ys j a|} with hbad
    have hsub : ({S | ∃ i j, ε * (Real.sqrt (∑ a, xs i a ^ 2) * Real.sqrt (∑ a, ys j a ^ 2)) <
        |rowDot (idealRow (signProjector block seed S) 0 (xs i)) (idealRow (signProjector block seed S) 0 (ys j)) - ∑ a, xs i a * ys j a|} :
        Finset (Fin d × Fin p → Bool)) ⊆ univ.biUnion fun i => univ.biUnion fun j => bad i j := by
      intro S hS
      rw [Finset.mem_filter] at hS
      obtain ⟨-, i, j, hij⟩ := hS
      exact Finset.mem_biUnion.2 ⟨i, mem_univ _, Finset.mem_biUnion.2 ⟨j, mem_univ _, Finset.mem_filter.2 ⟨mem_univ _, hij⟩⟩⟩
    have hc : (#(univ.biUnion fun i => univ.biUnion fun j => bad i j) : ℝ) ≤ ∑ i, ∑ j, (#(bad i j) : ℝ) := by
      have h1 : #(univ.biUnion fun i => univ.biUnion fun j => bad i j) ≤ ∑ i, ∑ j, #(bad i j) :=
        Finset.card_biUnion_le.trans (Finset.sum_le_sum fun i _ => Finset.card_biUnion_le)
      exact_mod_cast h1
    have hpe : 0 ≤ (p : ℝ) * ε ^ 2 := by positivity
    have h2 : (#{S | ∃ i j, ε * (Real.sqrt (∑ a, xs i a ^ 2) * Real.sqrt (∑ a, ys j a ^ 2)) <
        |rowDot (idealRow (signProjector block seed S) 0 (xs i)) (idealRow (signProjector block seed S) 0 (ys j)) - ∑ a, xs i a * ys j a|} : ℝ) ≤
        ∑ i, ∑ j, (#(bad i j) : ℝ) := le_trans (by exact_mod_cast Finset.card_le_card hsub) hc
    refine (mul_le_mul_of_nonneg_right h2 hpe).trans ?_
    rw [Finset.sum_mul]
    calc ∑ i, (∑ j, (#(bad i j) : ℝ)) * (p * ε ^ 2) ≤ ∑ _i : Fin n, ∑ _j : Fin m, 2 * (2 : ℝ) ^ (d * p) := by
          refine Finset.sum_le_sum fun i _ => ?_
          rw [Finset.sum_mul]
          exact Finset.sum_le_sum fun j _ => few_bad hp (xs i) (ys j) _ _ (by positivity) (rademacher_var block seed hp (xs i) (ys j)) ε hε
      _ = 2 * (n * m) * 2 ^ (d * p) := by
          simp only [Finset.sum_const, Finset.card_univ, Fintype.card_fin, nsmul_eq_mul]
          ring

/-- The mean squared error is not zero in general: for two coordinates, one output and `x = (1, 0)`, `y = (0, 1)` it is `1`. -/
example : ((∑ a, (![1, 0] : Fin 2 → ℝ) a ^ 2) * (∑ a, (![0, 1] : Fin 2 → ℝ) a ^ 2) + (∑ a, (![1, 0] : Fin 2 → ℝ) a * (![0, 1] : Fin 2 → ℝ) a) ^ 2 -
    2 * ∑ a, (![1, 0] : Fin 2 → ℝ) a ^ 2 * (![0, 1] : Fin 2 → ℝ) a ^ 2) / (1 : ℕ) = 1 := by
  simp [Fin.sum_univ_two]

/-- The bound says something: with `p = 10000`, `ε = 1/10` and a single pair of rows, at most `2` in `100` sign matrices are bad. -/
example (d : ℕ) (bad : ℝ) (h : bad * ((10000 : ℕ) * (1 / 10 : ℝ) ^ 2) ≤ 2 * ((1 : ℕ) * (1 : ℕ)) * 2 ^ (d * 10000)) :
    bad ≤ 2 / 100 * 2 ^ (d * 10000) := by
  push_cast at h
  linarith

end Verif.Projection
