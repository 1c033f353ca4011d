import Verif.KNN.Spec
import Mathlib.Data.Finset.Max
import Mathlib.Tactic.Ring
import Mathlib.Tactic.Linarith
import Mathlib.Tactic.FieldSimp
import Mathlib.Algebra.BigOperators.Fin
import Mathlib.Algebra.BigOperators.Ring.Finset
import Mathlib.Algebra.BigOperators.Field
import Mathlib.Algebra.Order.BigOperators.Group.Finset
import Mathlib.Data.Nat.Cast.Order.Ring
import Mathlib.Tactic.NormNum
import Mathlib.Tactic.Abel

/-! # Helper lemmas: Shapley axioms and the unit games of the KNN utility -/

namespace Verif.KNN

open Finset Equiv

variable {N : ℕ}

/-- Efficiency. -/
lemma shapley_efficiency (v : Finset (Fin N) → ℚ) : ∑ i, shapley v i = v univ - v ∅ := by
  unfold shapley
  rw [← Finset.sum_div, Finset.sum_comm]
  have key : ∀ π : Perm (Fin N), ∑ i, (v (insert i (pred π i)) - v (pred π i)) = v univ - v ∅ := by
    intro π
    let A : ℕ → Finset (Fin N) := fun k => univ.filter (fun j => (π j : ℕ) < k)
    have h1 : ∑ i, (v (insert i (pred π i)) - v (pred π i)) = ∑ k : Fin N, (v (A (k + 1)) - v (A k)) := by
      apply Fintype.sum_equiv π
      intro i
      have e1 : pred π i = A (π i) := by
        ext j; simp only [pred, A, mem_filter, mem_univ, true_and, Fin.lt_def]
      have e2 : insert i (pred π i) = A (π i + 1) := by
        ext j
        simp only [pred, A, mem_insert, mem_filter, mem_univ, true_and, Fin.lt_def]
        constructor
        · rintro (rfl | h) <;> omega
        · intro h
          by_cases hh : (π j : ℕ) = π i
          · left; exact π.injective (Fin.ext hh)
          · right; omega
      rw [e2, e1]
    rw [h1, Fin.sum_univ_eq_sum_range (fun k => v (A (k + 1)) - v (A k)) N, Finset.sum_range_sub (fun k => v (A k))]
    congr 1
    · congr 1; ext j; simp [A]
    · congr 1; ext j; simp [A]
  simp only [key]
  rw [Finset.sum_const, card_univ, Fintype.card_perm, Fintype.card_fin, nsmul_eq_mul]
  have : (N.factorial : ℚ) ≠ 0 := by exact_mod_cast N.factorial_ne_zero
  field_simp

/-- Relabelling players. -/
lemma shapley_relabel (v : Finset (Fin N) → ℚ) (τ : Perm (Fin N)) (i : Fin N) :
    shapley (fun S => v (S.map τ.toEmbedding)) i = shapley v (τ i) := by
  unfold shapley
  congr 1
  apply Fintype.sum_equiv (Equiv.mulRight τ⁻¹)
  intro π
  have e1 : (pred π i).map τ.toEmbedding = pred (π * τ⁻¹) (τ i) := by
    ext j
    simp only [pred, mem_map, mem_filter, mem_univ, true_and, Equiv.coe_toEmbedding, Perm.mul_apply]
    constructor
    · rintro ⟨a, ha, rfl⟩; simpa using ha
    · intro h; exact ⟨τ⁻¹ j, by simpa using h, by simp⟩
  have e2 : (insert i (pred π i)).map τ.toEmbedding = insert (τ i) (pred (π * τ⁻¹) (τ i)) := by
    rw [Finset.map_insert, e1]; rfl
  simp only [e1, e2, Equiv.coe_mulRight]

lemma shapley_sum {ι : Type*} (s : Finset ι) (c : ι → ℚ) (u : ι → Finset (Fin N) → ℚ) (i : Fin N) :
    shapley (fun S => ∑ a ∈ s, c a * u a S) i = ∑ a ∈ s, c a * shapley (u a) i := by
  unfold shapley
  have : ∀ π : Perm (Fin N), (∑ a ∈ s, c a * u a (insert i (pred π i)) - ∑ a ∈ s, c a * u a (pred π i))
      = ∑ a ∈ s, c a * (u a (insert i (pred π i)) - u a (pred π i)) := by
    intro π
    rw [← Finset.sum_sub_distrib]
    exact Finset.sum_congr rfl (fun a _ => by ring)
  simp only [this]
  rw [Finset.sum_comm, Finset.sum_div]
  refine Finset.sum_congr rfl (fun a _ => ?_)
  rw [← Finset.mul_sum, mul_div_assoc]

lemma shapley_null (v : Finset (Fin N) → ℚ) (i : Fin N) (h : ∀ S, i ∉ S → v (insert i S) = v S) : shapley v i = 0 := by
  unfold shapley
  rw [Finset.sum_eq_zero, zero_div]
  intro π _
  rw [h, sub_self]
  simp [pred]

/-- In any order, exactly `min K |D|` members of `D` have fewer than `K` predecessors in `D`. -/
lemma count_lt_K (K : ℕ) (f : Fin N → Fin N) (hf : Function.Injective f) (D : Finset (Fin N)) :
    (D.filter (fun b => (D.filter (fun j => f j < f b)).card < K)).card = min K D.card := by
  induction D using Finset.induction_on_max_value f with
  | empty => simp
  | insert a s ha hmax ih =>
    have hlt : ∀ x ∈ s, f x < f a := fun x hx =>
      lt_of_le_of_ne (hmax x hx) (fun h => ha (hf h ▸ hx))
    have e1 : ∀ b ∈ s, ((insert a s).filter (fun j => f j < f b)) = s.filter (fun j => f j < f b) := by
      intro b hb
      rw [Finset.filter_insert, if_neg (not_lt.2 (hmax b hb))]
    have e2 : ((insert a s).filter (fun j => f j < f a)) = s := by
      rw [Finset.filter_insert, if_neg (lt_irrefl _)]
      exact Finset.filter_true_of_mem hlt
    rw [Finset.filter_insert, e2]
    have e3 : s.filter (fun b => ((insert a s).filter (fun j => f j < f b)).card < K)
        = s.filter (fun b => (s.filter (fun j => f j < f b)).card < K) :=
      Finset.filter_congr (fun b hb => by rw [e1 b hb])
    rw [e3, Finset.card_insert_of_notMem ha]
    split
    · rw [Finset.card_insert_of_notMem (by simp [ha]), ih]; omega
    · rw [ih]; omega

variable (closer : Fin N → Fin N → Prop) [DecidableRel closer]

/-- Unit game of `a`: is `a` present and among the `K` nearest members? -/
def unitGame (K : ℕ) (a : Fin N) (S : Finset (Fin N)) : ℚ :=
  if a ∈ S ∧ (S.filter (fun j => closer j a)).card < K then 1 else 0

lemma knnUtility_eq_sum (K : ℕ) (m : Fin N → Bool) :
    knnUtility K closer m = fun S => ∑ a : Fin N, ((if m a then (1 : ℚ) else 0) / K) * unitGame closer K a S := by
  funext S
  unfold knnUtility unitGame
  rw [Finset.card_filter, Nat.cast_sum, Finset.sum_div, ← Finset.sum_subset (Finset.subset_univ S)]
  · refine Finset.sum_congr rfl (fun a ha => ?_)
    by_cases h1 : m a = true <;> by_cases h2 : (S.filter (fun j => closer j a)).card < K <;> simp [h1, h2, ha]
  · intro a _ ha
    simp [ha]

lemma shapley_unit_self (hirr : ∀ a, ¬ closer a a) (K : ℕ) (a : Fin N) :
    shapley (unitGame closer K a) a =
      (min K ((univ.filter (fun j => closer j a)).card + 1) : ℕ) / (((univ.filter (fun j => closer j a)).card : ℚ) + 1) := by
  set C := univ.filter (fun j => closer j a) with hC
  have haC : a ∉ C := by simp [hC, hirr]
  set D := insert a C with hD
  have hDcard : D.card = C.card + 1 := Finset.card_insert_of_notMem haC
  -- w π b = 1 iff b has fewer than K predecessors in D
  let w : Perm (Fin N) → Fin N → ℚ := fun π b => if (D.filter (fun j => π j < π b)).card < K then 1 else 0
  have hm : ∀ π : Perm (Fin N), unitGame closer K a (insert a (pred π a)) - unitGame closer K a (pred π a) = w π a := by
    intro π
    have ha : a ∉ pred π a := by simp [pred]
    have e : (insert a (pred π a)).filter (fun j => closer j a) = D.filter (fun j => π j < π a) := by
      ext j
      simp only [pred, hD, hC, mem_filter, mem_insert, mem_univ, true_and]
      constructor
      · rintro ⟨rfl | h, hc⟩
        · exact absurd hc (hirr _)
        · exact ⟨Or.inr hc, h⟩
      · rintro ⟨rfl | hc, h⟩
        · exact absurd h (lt_irrefl _)
        · exact ⟨Or.inr h, hc⟩
    simp only [unitGame, ha, false_and, if_false, sub_zero, mem_insert, true_or, true_and, e, w]
  have hsym : ∀ b ∈ D, ∑ π : Perm (Fin N), w π b = ∑ π : Perm (Fin N), w π a := by
    intro b hb
    apply Fintype.sum_equiv (Equiv.mulRight (swap a b))
    intro π
    have e : (D.filter (fun j => (π * swap a b) j < (π * swap a b) a)).card = (D.filter (fun j => π j < π b)).card := by
      apply Finset.card_bij (fun j _ => swap a b j)
      · intro j hj
        simp only [mem_filter, Perm.mul_apply, swap_apply_left] at hj ⊢
        refine ⟨?_, hj.2⟩
        rcases eq_or_ne j a with rfl | h1
        · simpa using hb
        · rcases eq_or_ne j b with rfl | h2
          · simp [hD]
          · rw [swap_apply_of_ne_of_ne h1 h2]; exact hj.1
      · intro x _ y _ h; exact (swap a b).injective h
      · intro j hj
        simp only [mem_filter] at hj
        refine ⟨swap a b j, ?_, by simp⟩
        simp only [mem_filter, Perm.mul_apply, swap_apply_left, swap_apply_self]
        refine ⟨?_, hj.2⟩
        rcases eq_or_ne j a with rfl | h1
        · simpa using hb
        · rcases eq_or_ne j b with rfl | h2
          · simp [hD]
          · rw [swap_apply_of_ne_of_ne h1 h2]; exact hj.1
    simp only [w, Equiv.coe_mulRight]
    rw [e]
  have htot : ∑ b ∈ D, ∑ π : Perm (Fin N), w π b = (N.factorial : ℚ) * (min K (C.card + 1) : ℕ) := by
    rw [Finset.sum_comm]
    have : ∀ π : Perm (Fin N), ∑ b ∈ D, w π b = ((min K (C.card + 1) : ℕ) : ℚ) := by
      intro π
      simp only [w]
      rw [Finset.sum_ite]
      simp only [sum_const_zero, add_zero, sum_const, nsmul_eq_mul]
      have := count_lt_K K π π.injective D
      rw [hDcard] at this
      rw [this]; simp
    simp only [this]
    rw [Finset.sum_const, card_univ, Fintype.card_perm, Fintype.card_fin, nsmul_eq_mul]
  rw [Finset.sum_congr rfl hsym, Finset.sum_const, hDcard, nsmul_eq_mul] at htot
  unfold shapley
  simp only [hm]
  have hN : (N.factorial : ℚ) ≠ 0 := by exact_mod_cast N.factorial_ne_zero
  have hc1 : (C.card : ℚ) + 1 ≠ 0 := by positivity
  rw [div_eq_div_iff hN hc1]
  push_cast at htot ⊢
  linarith

lemma shapley_unit_far (K : ℕ) (a i : Fin N) (hne : i ≠ a) (hfar : ¬ closer i a) :
    shapley (unitGame closer K a) i = 0 := by
  apply shapley_null
  intro S _
  unfold unitGame
  have : (insert i S).filter (fun j => closer j a) = S.filter (fun j => closer j a) := by
    rw [Finset.filter_insert, if_neg hfar]
  rw [this]
  simp [hne.symm]

lemma shapley_unit_close (hirr : ∀ a, ¬ closer a a) (K : ℕ) (a i : Fin N) (hcl : closer i a) :
    shapley (unitGame closer K a) i =
      ((if (univ.filter (fun j => closer j a)).card < K then (1 : ℚ) else 0) - shapley (unitGame closer K a) a)
        / ((univ.filter (fun j => closer j a)).card : ℚ) := by
  set C := univ.filter (fun j => closer j a) with hC
  have haC : a ∉ C := by simp [hC, hirr]
  have hiC : i ∈ C := by simp [hC, hcl]
  have hKpos : ∀ S : Finset (Fin N), (S.filter (fun j => closer j a)).card < K → 0 < K := fun S h => by omega
  have hsym : ∀ c ∈ C, shapley (unitGame closer K a) c = shapley (unitGame closer K a) i := by
    intro c hc
    have hc' : closer c a := by simpa [hC] using hc
    have hca : c ≠ a := fun h => hirr a (h ▸ hc')
    have hia : i ≠ a := fun h => hirr a (h ▸ hcl)
    have h := shapley_relabel (unitGame closer K a) (swap i c) i
    rw [swap_apply_left] at h
    rw [← h]
    congr 1
    funext S
    unfold unitGame
    have e1 : a ∈ S.map (swap i c).toEmbedding ↔ a ∈ S := by
      simp only [mem_map, Equiv.coe_toEmbedding]
      constructor
      · rintro ⟨x, hx, hxa⟩
        have : x = a := by
          rw [← swap_apply_self i c x, hxa]  
          exact swap_apply_of_ne_of_ne hia.symm hca.symm
        exact this ▸ hx
      · intro h; exact ⟨a, h, swap_apply_of_ne_of_ne hia.symm hca.symm⟩
    have hcs : ∀ x, closer (swap i c x) a ↔ closer x a := by
      intro x
      rcases eq_or_ne x i with rfl | h1
      · simp [hc', hcl]
      · rcases eq_or_ne x c with rfl | h2
        · simp [hc', hcl]
        · rw [swap_apply_of_ne_of_ne h1 h2]
    have e2 : ((S.map (swap i c).toEmbedding).filter (fun j => closer j a)).card = (S.filter (fun j => closer j a)).card := by
      rw [Finset.filter_map, Finset.card_map]
      congr 1
      apply Finset.filter_congr
      intro x _
      exact hcs x
    simp only [e1, e2]
  have heff := shapley_efficiency (unitGame closer K a)
  have hu : unitGame closer K a univ = if C.card < K then (1 : ℚ) else 0 := by
    simp [unitGame, hC]
  have h0 : unitGame closer K a ∅ = 0 := by simp [unitGame]
  rw [hu, h0, sub_zero] at heff
  have hsplit : ∑ x, shapley (unitGame closer K a) x
      = shapley (unitGame closer K a) a + ∑ c ∈ C, shapley (unitGame closer K a) c := by
    rw [← Finset.sum_insert haC]
    symm
    apply Finset.sum_subset (Finset.subset_univ _)
    intro x _ hx
    rw [mem_insert, not_or] at hx
    apply shapley_unit_far closer K a x hx.1
    simpa [hC] using hx.2
  rw [hsplit, Finset.sum_congr rfl hsym, Finset.sum_const, nsmul_eq_mul] at heff
  have hCpos : (C.card : ℚ) ≠ 0 := by
    have : 0 < C.card := Finset.card_pos.2 ⟨i, hiC⟩
    positivity
  rw [eq_div_iff hCpos, ← heff]
  ring

end Verif.KNN
