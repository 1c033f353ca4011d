import Mathlib.LinearAlgebra.Matrix.ToLinearEquiv
import Mathlib.Algebra.Order.BigOperators.Group.List
import Mathlib.Algebra.Order.Field.Basic
import Mathlib.Tactic.FieldSimp
import Mathlib.Tactic.Positivity
import Mathlib.Tactic.NormNum
import Verif.BlockIF.IFLemmas

/-!
# Preconditioners of the block-projected attributor (property C56)
-/

namespace Verif.BlockIF

open Verif

variable {K : Type} [Field K] [DecidableEq K] {L : ℕ} {d : Fin L → ℕ}

/-! ### Specification -/

/-- Mean outer product of layer `l`'s gradients over the samples. -/
def meanOuter (l : Fin L) (samples : List (Row K d)) : Matrix (Fin (d l)) (Fin (d l)) K :=
  ((samples.length : K)⁻¹) • (samples.map fun g => Matrix.vecMulVec (g l) (g l)).sum

/-- Mean outer product plus `δ·trace/n` on the diagonal. -/
def damped (δ : K) (l : Fin L) (samples : List (Row K d)) : Matrix (Fin (d l)) (Fin (d l)) K :=
  meanOuter l samples + (δ * (meanOuter l samples).trace / (d l : K)) • (1 : Matrix _ _ K)

omit [DecidableEq K] in
theorem gram_eq (l : Fin L) (rows : List (Row K d)) :
    gram l rows = (rows.map fun g => Matrix.vecMulVec (g l) (g l)).sum := by
  induction rows with
  | nil => exact gram_nil l
  | cons g rows ih =>
    rw [← List.singleton_append, gram_append, ih, List.map_append, List.sum_append]
    congr 1

theorem stableInverse_eq (damping : Option K) (l : Fin L) (rows : List (Row K d)) :
    stableInverse damping ((rows.length : K)⁻¹ • gram l rows) =
      if (damped (damping.getD (1 / 100000)) l rows).det = 0 then .error .runtimeError
      else .ok (damped (damping.getD (1 / 100000)) l rows)⁻¹ := by
  unfold stableInverse damped meanOuter
  rw [gram_eq]

/-- Layers that get a preconditioner: positive dimension and at least one sample. -/
def Active (l : Fin L) (samples : List (Row K d)) : Prop := d l ≠ 0 ∧ samples ≠ []

theorem preLoop_eq (damping : Option K) {g : ℕ} (hg : 0 < g) (c : List (ℕ × List (Row K d)))
    (ls : List (Fin L)) (hls : ls.Nodup)
    (p : (l : Fin L) → Option (Matrix (Fin (d l)) (Fin (d l)) K)) :
    let all := (sortedItems c).flatMap Prod.snd
    let r := preLoop damping (chunks g c) ls p
    (r.2 = .ok () ∧
      (∀ l ∈ ls, Active l all → (damped (damping.getD (1 / 100000)) l all).det ≠ 0) ∧
      (∀ l, l ∈ ls → Active l all → r.1 l = some (damped (damping.getD (1 / 100000)) l all)⁻¹) ∧
      (∀ l, ¬ (l ∈ ls ∧ Active l all) → r.1 l = p l)) ∨
    (r.2 = .error .runtimeError ∧
      ∃ l ∈ ls, Active l all ∧ (damped (damping.getD (1 / 100000)) l all).det = 0) := by
  intro all r
  induction ls generalizing p with
  | nil => exact Or.inl ⟨rfl, by simp, by simp, fun _ _ => rfl⟩
  | cons a ls ih =>
    rw [List.nodup_cons] at hls
    have hacc : accumulate a (chunks g c) = (gram a all, all.length) := by
      rw [accumulate_eq, chunks_rows g hg]
    by_cases hact : Active a all
    · have hcond : ¬ (d a = 0 ∨ (accumulate a (chunks g c)).2 = 0) := by
        rw [hacc]
        rintro (h | h)
        · exact hact.1 h
        · exact hact.2 (List.length_eq_zero_iff.1 h)
      by_cases hdet : (damped (damping.getD (1 / 100000)) a all).det = 0
      · right
        have hr : r = (p, .error .runtimeError) := by
          change preLoop damping (chunks g c) (a :: ls) p = _
          rw [preLoop, if_neg hcond, hacc]
          simp only
          rw [stableInverse_eq, if_pos hdet]
        exact ⟨by rw [hr], a, List.mem_cons_self, hact, hdet⟩
      · have hr : r = preLoop damping (chunks g c) ls
            (Function.update p a (some (damped (damping.getD (1 / 100000)) a all)⁻¹)) := by
          change preLoop damping (chunks g c) (a :: ls) p = _
          rw [preLoop, if_neg hcond, hacc]
          simp only
          rw [stableInverse_eq, if_neg hdet]
        have := ih hls.2 (Function.update p a (some (damped (damping.getD (1 / 100000)) a all)⁻¹))
        simp only at this
        rw [← hr] at this
        rcases this with ⟨h1, h2, h3, h4⟩ | ⟨h1, l, hl, h2, h3⟩
        · left
          refine ⟨h1, ?_, ?_, ?_⟩
          · intro l hl ha
            rcases List.mem_cons.1 hl with rfl | h
            · exact hdet
            · exact h2 l h ha
          · intro l hl ha
            rcases List.mem_cons.1 hl with rfl | h
            · rw [h4 l (fun hc => hls.1 hc.1), Function.update_self]
            · exact h3 l h ha
          · intro l hl
            have hne : l ≠ a := by
              rintro rfl; exact hl ⟨List.mem_cons_self, hact⟩
            rw [h4 l (fun hc => hl ⟨List.mem_cons_of_mem _ hc.1, hc.2⟩), Function.update_of_ne hne]
        · exact Or.inr ⟨h1, l, List.mem_cons_of_mem _ hl, h2, h3⟩
    · have hcond : d a = 0 ∨ (accumulate a (chunks g c)).2 = 0 := by
        rw [hacc]
        by_contra hc
        push Not at hc
        exact hact ⟨hc.1, fun h => hc.2 (by rw [h]; rfl)⟩
      have hr : r = preLoop damping (chunks g c) ls p := by
        change preLoop damping (chunks g c) (a :: ls) p = _
        rw [preLoop, if_pos hcond]
      have := ih hls.2 p
      simp only at this
      rw [← hr] at this
      rcases this with ⟨h1, h2, h3, h4⟩ | ⟨h1, l, hl, h2, h3⟩
      · left
        refine ⟨h1, ?_, ?_, ?_⟩
        · intro l hl ha
          rcases List.mem_cons.1 hl with rfl | h
          · exact absurd ha hact
          · exact h2 l h ha
        · intro l hl ha
          rcases List.mem_cons.1 hl with rfl | h
          · exact absurd ha hact
          · exact h3 l h ha
        · intro l hl
          exact h4 l fun hc => hl ⟨List.mem_cons_of_mem _ hc.1, hc.2⟩
      · exact Or.inr ⟨h1, l, List.mem_cons_of_mem _ hl, h2, h3⟩

omit [DecidableEq K] in
theorem meanOuter_perm (l : Fin L) {a b : List (Row K d)} (h : a.Perm b) :
    meanOuter l a = meanOuter l b := by
  unfold meanOuter
  rw [h.length_eq, (h.map _).sum_eq]

omit [DecidableEq K] in
theorem damped_perm (δ : K) (l : Fin L) {a b : List (Row K d)} (h : a.Perm b) :
    damped δ l a = damped δ l b := by
  unfold damped
  rw [meanOuter_perm l h]

/-- **C56 (value).** Whatever the batches and whatever the number of batches the loader groups, the
computation of the preconditioners succeeds exactly when every damped mean outer product (over all
stored samples of the layer) is invertible; then each layer with samples and positive dimension gets
its inverse. -/
theorem C56_value (damping : Option K) {g : ℕ} (hg : 0 < g) {c : List (ℕ × List (Row K d))}
    (hn : (PyDict.keys c).Nodup) (p : (l : Fin L) → Option (Matrix (Fin (d l)) (Fin (d l)) K)) :
    let all := c.flatMap Prod.snd
    let r := preLoop damping (chunks g c) (List.finRange L) p
    (r.2 = .ok () ↔ ∀ l, Active l all → (damped (damping.getD (1 / 100000)) l all).det ≠ 0) ∧
    (r.2 ≠ .ok () → r.2 = .error .runtimeError) ∧
    (r.2 = .ok () → ∀ l, Active l all → ∃ P, r.1 l = some P ∧
      P * damped (damping.getD (1 / 100000)) l all = 1) := by
  intro all r
  have hperm : ((sortedItems c).flatMap Prod.snd).Perm all := (sortedItems_perm hn).flatMap_right _
  have hact : ∀ l : Fin L, Active l ((sortedItems c).flatMap Prod.snd) ↔ Active l all := by
    intro l
    unfold Active
    rw [← List.length_pos_iff, ← List.length_pos_iff, hperm.length_eq]
  have := preLoop_eq damping hg c (List.finRange L) (List.nodup_finRange L) p
  simp only [hact, damped_perm _ _ hperm, List.mem_finRange, true_and, true_implies] at this
  rcases this with ⟨h1, h2, h3, h4⟩ | ⟨h1, l, h2, h3⟩
  · refine ⟨⟨fun _ => h2, fun _ => h1⟩, fun h => absurd h1 h, fun _ l hl => ⟨_, h3 l hl, ?_⟩⟩
    exact Matrix.nonsing_inv_mul _ (isUnit_iff_ne_zero.2 (h2 l hl))
  · refine ⟨⟨fun h => ?_, fun h => absurd h3 (h l h2)⟩, fun _ => h1, fun h => ?_⟩
    · rw [show r.2 = _ from h1] at h; cases h
    · rw [show r.2 = _ from h1] at h; cases h

/-- **C56 (invariance).** Two ways of storing the same multiset of per-sample gradients - other
batches, other batch indices, other grouping - give the same outcome and, for every layer with
samples, the same preconditioner. -/
theorem C56_invariant (damping : Option K) {g g' : ℕ} (hg : 0 < g) (hg' : 0 < g')
    {c c' : List (ℕ × List (Row K d))} (hn : (PyDict.keys c).Nodup) (hn' : (PyDict.keys c').Nodup)
    (hp : (c.flatMap Prod.snd).Perm (c'.flatMap Prod.snd))
    (p : (l : Fin L) → Option (Matrix (Fin (d l)) (Fin (d l)) K)) :
    (preLoop damping (chunks g c) (List.finRange L) p).2 =
      (preLoop damping (chunks g' c') (List.finRange L) p).2 ∧
    ((preLoop damping (chunks g c) (List.finRange L) p).2 = .ok () →
      (preLoop damping (chunks g c) (List.finRange L) p).1 =
        (preLoop damping (chunks g' c') (List.finRange L) p).1) := by
  have hp1 : ((sortedItems c).flatMap Prod.snd).Perm ((sortedItems c').flatMap Prod.snd) :=
    (((sortedItems_perm hn).flatMap_right _).trans hp).trans
      ((sortedItems_perm hn').flatMap_right _).symm
  have hact : ∀ l : Fin L, Active l ((sortedItems c).flatMap Prod.snd) ↔
      Active l ((sortedItems c').flatMap Prod.snd) := by
    intro l
    unfold Active
    rw [← List.length_pos_iff, ← List.length_pos_iff, hp1.length_eq]
  have h1 := preLoop_eq damping hg c (List.finRange L) (List.nodup_finRange L) p
  have h2 := preLoop_eq damping hg' c' (List.finRange L) (List.nodup_finRange L) p
  simp only [hact, damped_perm _ _ hp1] at h1
  simp only at h2
  rcases h1 with ⟨a1, a2, a3, a4⟩ | ⟨a1, l, a2, a3, a4⟩
  · rcases h2 with ⟨b1, b2, b3, b4⟩ | ⟨b1, l, b2, b3, b4⟩
    · refine ⟨a1.trans b1.symm, fun _ => ?_⟩
      funext l
      by_cases hl : Active l ((sortedItems c').flatMap Prod.snd)
      · rw [a3 l (List.mem_finRange l) hl, b3 l (List.mem_finRange l) hl]
      · rw [a4 l fun h => hl h.2, b4 l fun h => hl h.2]
    · exact absurd b4 (a2 l b2 b3)
  · rcases h2 with ⟨b1, b2, b3, b4⟩ | ⟨b1, l', b2, b3, b4⟩
    · exact absurd a4 (b2 l a2 a3)
    · exact ⟨a1.trans b1.symm, fun h => by rw [a1] at h; cases h⟩

/-- **C56 (no gradient).** If every sample's gradient of a layer vanishes - a dead layer - the damping,
which is relative to the trace, vanishes too and the matrix is singular: the computation raises
`RuntimeError`, whatever the damping. -/
theorem C56_dead_layer (damping : Option K) {g : ℕ} (hg : 0 < g)
    {c : List (ℕ × List (Row K d))} (hn : (PyDict.keys c).Nodup)
    (p : (l : Fin L) → Option (Matrix (Fin (d l)) (Fin (d l)) K)) (l : Fin L) (hl : d l ≠ 0)
    (hne : c.flatMap Prod.snd ≠ []) (h0 : ∀ s ∈ c.flatMap Prod.snd, s l = 0) :
    (preLoop damping (chunks g c) (List.finRange L) p).2 = .error .runtimeError := by
  have hm : meanOuter l (c.flatMap Prod.snd) = 0 := by
    unfold meanOuter
    rw [List.map_congr_left (g := fun _ => 0) (fun s hs => by rw [h0 s hs]; ext i j; simp [Matrix.vecMulVec])]
    simp
  have hdet : (damped (damping.getD (1 / 100000)) l (c.flatMap Prod.snd)).det = 0 := by
    unfold damped
    rw [hm]
    have : Nonempty (Fin (d l)) := ⟨⟨0, Nat.pos_of_ne_zero hl⟩⟩
    simp [Matrix.det_zero]
  have hv := C56_value damping hg hn p
  simp only at hv
  refine hv.2.1 fun hok => ?_
  exact hv.1.1 hok l ⟨hl, hne⟩ hdet

/-! ### Existence -/

section Order
variable {F : Type} [Field F] [LinearOrder F] [IsStrictOrderedRing F]

omit [LinearOrder F] [IsStrictOrderedRing F] in
theorem quad_meanOuter (l : Fin L) (samples : List (Row F d)) (v : Fin (d l) → F) :
    v ⬝ᵥ (meanOuter l samples).mulVec v =
      (samples.length : F)⁻¹ * (samples.map fun g => (g l ⬝ᵥ v) ^ 2).sum := by
  unfold meanOuter
  rw [Matrix.smul_mulVec, dotProduct_smul, smul_eq_mul]
  congr 1
  induction samples with
  | nil => simp
  | cons g gs ih =>
    simp only [List.map_cons, List.sum_cons, Matrix.add_mulVec, dotProduct_add, ih]
    congr 1
    rw [Matrix.vecMulVec_mulVec, dotProduct_smul]
    simp only [MulOpposite.smul_eq_mul_unop, MulOpposite.unop_op]
    rw [dotProduct_comm v, sq]

omit [LinearOrder F] [IsStrictOrderedRing F] in
theorem trace_meanOuter (l : Fin L) (samples : List (Row F d)) :
    (meanOuter l samples).trace =
      (samples.length : F)⁻¹ * (samples.map fun g => g l ⬝ᵥ g l).sum := by
  unfold meanOuter
  rw [Matrix.trace_smul, smul_eq_mul]
  congr 1
  induction samples with
  | nil => simp
  | cons g gs ih =>
    simp only [List.map_cons, List.sum_cons, Matrix.trace_add, ih, Matrix.trace_vecMulVec]

theorem dot_self_nonneg {n : ℕ} (v : Fin n → F) : 0 ≤ v ⬝ᵥ v :=
  Finset.sum_nonneg fun i _ => mul_self_nonneg (v i)

theorem dot_self_eq_zero {n : ℕ} {v : Fin n → F} (h : v ⬝ᵥ v = 0) : v = 0 := by
  funext i
  have := (Finset.sum_eq_zero_iff_of_nonneg fun i _ => mul_self_nonneg (v i)).1 h i
    (Finset.mem_univ i)
  simpa using this

theorem trace_pos (l : Fin L) {samples : List (Row F d)} (h : ∃ g ∈ samples, g l ≠ 0) :
    0 < (meanOuter l samples).trace := by
  obtain ⟨g, hg, h0⟩ := h
  rw [trace_meanOuter]
  have hlen : 0 < (samples.length : F) := by
    exact_mod_cast List.length_pos_of_mem hg
  refine mul_pos (inv_pos.2 hlen) (lt_of_le_of_ne (List.sum_nonneg ?_) fun hs => ?_)
  · intro x hx
    obtain ⟨g', _, rfl⟩ := List.mem_map.1 hx
    exact dot_self_nonneg _
  · have hle : g l ⬝ᵥ g l ≤ (samples.map fun g => g l ⬝ᵥ g l).sum :=
      List.single_le_sum (fun x hx => by
        obtain ⟨g', _, rfl⟩ := List.mem_map.1 hx
        exact dot_self_nonneg _) _ (List.mem_map.2 ⟨g, hg, rfl⟩)
    rw [← hs] at hle
    exact h0 (dot_self_eq_zero (le_antisymm hle (dot_self_nonneg _)))

/-- **C56 (existence).** For every positive damping and every layer in which some sample has a
non-zero gradient the damped matrix is invertible. -/
theorem C56_exists {δ : F} (hδ : 0 < δ) (l : Fin L) {samples : List (Row F d)}
    (h : ∃ g ∈ samples, g l ≠ 0) : (damped δ l samples).det ≠ 0 := by
  intro hdet
  obtain ⟨v, hv, hDv⟩ := Matrix.exists_mulVec_eq_zero_iff.2 hdet
  have hdl : 0 < d l := by
    rcases Nat.eq_zero_or_pos (d l) with h0 | h0
    · exfalso
      apply hv
      funext i
      exact absurd i.2 (by omega)
    · exact h0
  have hq : v ⬝ᵥ (damped δ l samples).mulVec v = 0 := by rw [hDv]; simp
  have hc : 0 < δ * (meanOuter l samples).trace / (d l : F) :=
    div_pos (mul_pos hδ (trace_pos l h)) (by exact_mod_cast hdl)
  have hq1 : 0 ≤ v ⬝ᵥ (meanOuter l samples).mulVec v := by
    rw [quad_meanOuter]
    refine mul_nonneg (inv_nonneg.2 (Nat.cast_nonneg _)) (List.sum_nonneg ?_)
    intro x hx
    obtain ⟨g', _, rfl⟩ := List.mem_map.1 hx
    positivity
  unfold damped at hq
  rw [Matrix.add_mulVec, dotProduct_add, Matrix.smul_mulVec, Matrix.one_mulVec, dotProduct_smul,
    smul_eq_mul] at hq
  have h2 : v ⬝ᵥ v = 0 := by
    have h3 := mul_nonneg hc.le (dot_self_nonneg v)
    have h4 : (δ * (meanOuter l samples).trace / (d l : F)) * (v ⬝ᵥ v) = 0 := by linarith
    rcases mul_eq_zero.1 h4 with h5 | h5
    · exact absurd h5 hc.ne'
    · exact h5
  exact hv (dot_self_eq_zero h2)

end Order

/-! ### Concrete cases -/

/-- One layer of dimension 2. -/
abbrev d2 : Fin 1 → ℕ := fun _ => 2

/-- A row of that layer. -/
def row2 (a b : ℚ) : Row ℚ d2 := fun _ => ![a, b]

/-- Three samples in two batches, or in one: same preconditioner (rank-deficient without damping). -/
example : (preLoop (some (1 / 2)) (chunks 4 [(0, [row2 1 0, row2 2 0]), (1, [row2 3 0])])
    (List.finRange 1) fun _ => none).1 =
    (preLoop (some (1 / 2)) (chunks 1 [(7, [row2 3 0, row2 1 0, row2 2 0])])
    (List.finRange 1) fun _ => none).1 := by
  refine (C56_invariant (some (1 / 2 : ℚ)) (by decide) (by decide) (by decide) (by decide) ?_ _).2 ?_
  · exact (List.perm_append_comm (l₁ := [row2 1 0, row2 2 0]) (l₂ := [row2 3 0]))
  · rw [(C56_value (some (1 / 2 : ℚ)) (by decide) (by decide) _).1]
    intro l _
    exact C56_exists (by norm_num) l ⟨row2 1 0, by simp, fun h => by
      have := congrFun h 0; simp [row2] at this⟩

end Verif.BlockIF
