import Mathlib.Tactic.Linarith
import Mathlib.Data.List.Perm.Basic
import Mathlib.Data.List.Range
import Mathlib.Data.List.Sort
import Mathlib.Data.Finset.Card
import Verif.Metric.BrittleModel

/-!
# C48, C85: brittleness
-/

namespace Verif.Brittle

/-- Specification of `np.argsort` for an arbitrary (not necessarily stable) sort. -/
def IsArgsort (score : ℕ → ℚ) (n : ℕ) (order : List ℕ) : Prop :=
  order.Perm (List.range n) ∧ order.Pairwise fun a b => score a ≤ score b

/-- `T` is a set of `k` highest-scored training positions. -/
def IsTop (score : ℕ → ℚ) (n k : ℕ) (T : Finset ℕ) : Prop :=
  T ⊆ Finset.range n ∧ T.card = min k n ∧ ∀ a ∈ T, ∀ b ∈ Finset.range n, b ∉ T → score b ≤ score a

lemma isTop_take (score : ℕ → ℚ) (n k : ℕ) (order : List ℕ) (h : IsArgsort score n order) :
    IsTop score n k (order.reverse.take k).toFinset := by
  obtain ⟨hp, hs⟩ := h
  have hnd : order.Nodup := hp.nodup_iff.2 List.nodup_range
  have hsr : order.reverse.Pairwise fun a b => score b ≤ score a := by rw [List.pairwise_reverse]; exact hs
  refine ⟨?_, ?_, ?_⟩
  · intro a ha
    rw [List.mem_toFinset] at ha
    have := List.mem_of_mem_take ha
    rw [List.mem_reverse, hp.mem_iff, List.mem_range] at this
    exact Finset.mem_range.2 this
  · rw [List.toFinset_card_of_nodup ((List.nodup_reverse.2 hnd).sublist (List.take_sublist _ _)), List.length_take, List.length_reverse,
      hp.length_eq, List.length_range]
  · intro a ha b hb hnb
    rw [List.mem_toFinset] at ha hnb
    have hb' : b ∈ order.reverse := by rw [List.mem_reverse, hp.mem_iff, List.mem_range]; exact Finset.mem_range.1 hb
    rw [← List.take_append_drop k order.reverse, List.mem_append] at hb'
    rw [← List.take_append_drop k order.reverse, List.pairwise_append] at hsr
    rcases hb' with hb' | hb'
    · exact absurd hb' hnb
    · exact hsr.2.2 a ha b hb'

lemma search_ok (test : ℕ → Except Err Bool) (P : ℕ → Bool) (h : ∀ k, test k = .ok (P k)) (ks : List ℕ) : search test ks = .ok (ks.find? P) := by
  induction ks with
  | nil => rfl
  | cons k ks ih =>
    simp only [search, h, bind, Except.bind, List.find?_cons]
    cases P k
    · simpa using ih
    · rfl

/-- **C48** (first flip). With score vector, index sampler and a one-element label in the last test batch, there is a family `T k` of sets of `k`
highest-scored positions such that the result is the first `k` of the search space for which the model retrained without `T k` predicts another label,
and `None` iff there is none. -/
theorem C48_first_flip (enum : Finset ℕ → List ℕ) (orig : List ℕ) (labels : List (List ℤ)) (l : ℤ) (hl : labels.getLast? = some [l])
    (predict : List ℕ → ℤ) (score : ℕ → ℚ) (n : ℕ) (order : List ℕ) (ho : IsArgsort score n order) (space : List ℕ) :
    ∃ T : ℕ → Finset ℕ, (∀ k, IsTop score n k (T k)) ∧
      ∃ r, brittleness enum (some orig) labels predict (.vec order) (some space) = .ok r ∧
        (∀ k, r = some k ↔ ∃ pre post, space = pre ++ k :: post ∧ predict (enum (orig.toFinset \ T k)) ≠ l ∧
          ∀ k' ∈ pre, predict (enum (orig.toFinset \ T k')) = l) ∧
        (r = none ↔ ∀ k ∈ space, predict (enum (orig.toFinset \ T k)) = l) := by
  refine ⟨fun k => (order.reverse.take k).toFinset, fun k => isTop_take score n k order ho, ?_⟩
  have htest : ∀ k, testK enum (some orig) labels predict (.vec order) k =
      .ok (decide (predict (enum (orig.toFinset \ (order.reverse.take k).toFinset)) ≠ l)) := by
    intro k
    simp only [testK, checkIfFlip, hl, Bool.false_eq_true, if_false]
  refine ⟨_, search_ok _ _ htest space, ?_, ?_⟩
  · intro k
    rw [List.find?_eq_some_iff_append]
    simp only [decide_eq_true_eq, Bool.not_eq_true', decide_eq_false_iff_not, not_not]
    constructor
    · rintro ⟨h, pre, post, h1, h2⟩; exact ⟨pre, post, h1, h, h2⟩
    · rintro ⟨pre, post, h1, h, h2⟩; exact ⟨h, pre, post, h1, h2⟩
  · rw [List.find?_eq_none]
    simp only [decide_eq_true_eq, not_not]

/-- **C48** (smallest). On an ascending search space the result is the smallest flipping `k` of the space. -/
theorem C48_smallest (enum : Finset ℕ → List ℕ) (orig : List ℕ) (labels : List (List ℤ)) (l : ℤ) (hl : labels.getLast? = some [l])
    (predict : List ℕ → ℤ) (order : List ℕ) (space : List ℕ) (hasc : space.Pairwise (· ≤ ·)) (k : ℕ)
    (h : brittleness enum (some orig) labels predict (.vec order) (some space) = .ok (some k)) (k' : ℕ) (hk' : k' ∈ space)
    (hflip : predict (enum (orig.toFinset \ (order.reverse.take k').toFinset)) ≠ l) : k ≤ k' := by
  have htest : ∀ k, testK enum (some orig) labels predict (.vec order) k =
      .ok (decide (predict (enum (orig.toFinset \ (order.reverse.take k).toFinset)) ≠ l)) := by
    intro k
    simp only [testK, checkIfFlip, hl, Bool.false_eq_true, if_false]
  unfold brittleness at h
  rw [search_ok _ _ htest, Option.getD_some] at h
  injection h with h
  rw [List.find?_eq_some_iff_append] at h
  obtain ⟨-, pre, post, rfl, hpre⟩ := h
  rcases List.mem_append.1 hk' with hm | hm
  · have := hpre k' hm
    simp only [Bool.not_eq_true', decide_eq_false_iff_not, not_not] at this
    exact absurd this hflip
  · rcases List.mem_cons.1 hm with rfl | hm
    · exact le_refl _
    · rw [List.pairwise_append] at hasc
      exact (List.pairwise_cons.1 hasc.2.1).1 k' hm

/-- **C48** (order matters). On a search space that is not ascending the result need not be the smallest flipping `k`. -/
theorem C48_not_smallest : ∃ (order : List ℕ) (predict : List ℕ → ℤ) (space : List ℕ) (k k' : ℕ), IsArgsort (fun i => (i : ℚ)) 3 order ∧
    brittleness (fun s => (List.range 4).filter (· ∈ s)) (some [0, 1, 2]) [[0]] predict (.vec order) (some space) = .ok (some k) ∧ k' ∈ space ∧ k' < k ∧
    brittleness (fun s => (List.range 4).filter (· ∈ s)) (some [0, 1, 2]) [[0]] predict (.vec order) (some [k']) = .ok (some k') := by
  refine ⟨[0, 1, 2], fun r => if r.length < 3 then 1 else 0, [2, 1], 2, 1, ⟨by decide, by decide +kernel⟩, ?_, by decide, by decide, ?_⟩ <;>
    decide +kernel

/-- A case with a genuine flip: data 0..3 with scores equal to positions, the prediction flips when fewer than 3 points remain. -/
example : brittleness (fun s => (List.range 4).filter (· ∈ s)) (some [0, 1, 2, 3]) [[0], [5]] (fun r => if r.length < 3 then 1 else 5) (.vec [0, 1, 2, 3])
    (some [0, 1, 2, 3]) = .ok (some 2) := by decide +kernel

/-- **C85** (documented shape). With a score matrix of the documented shape, the search raises `TypeError` at the first positive `k`
it reaches: it can only return a `k` if removing nothing already "flips". -/
theorem C85_matrix_scores (enum : Finset ℕ → List ℕ) (orig : List ℕ) (labels : List (List ℤ)) (l : ℤ) (hl : labels.getLast? = some [l])
    (predict : List ℕ → ℤ) (rows : ℕ) (hrows : 0 < rows) (space : List ℕ) :
    brittleness enum (some orig) labels predict (.mat rows) (some space) =
      if predict (enum orig.toFinset) ≠ l ∧ space.head? = some 0 then .ok (some 0)
      else if ∀ k ∈ space, k = 0 then .ok none else .error .typeError := by
  unfold brittleness
  rw [Option.getD_some]
  have h0 : testK enum (some orig) labels predict (.mat rows) 0 = .ok (decide (predict (enum orig.toFinset) ≠ l)) := by
    simp [testK, checkIfFlip, hl]
  have hpos : ∀ k, testK enum (some orig) labels predict (.mat rows) (k + 1) = .error .typeError := by
    intro k
    have : decide (0 < min (k + 1) rows) = true := by simp; omega
    simp only [testK, checkIfFlip, this, if_true]
  induction space with
  | nil => simp [search]
  | cons k ks ih =>
    cases k with
    | succ k => simp [search, hpos, bind, Except.bind]
    | zero =>
      simp only [search, h0, bind, Except.bind]
      by_cases hp : predict (enum orig.toFinset) ≠ l
      · simp [hp]
      · simp only [hp, decide_false, Bool.false_eq_true, if_false, false_and]
        rw [ih]
        simp [hp]

/-- **C85** (other samplers). A training loader whose sampler has no `indices` attribute makes every non-empty search raise `AttributeError`. -/
theorem C85_sampler (enum : Finset ℕ → List ℕ) (labels : List (List ℤ)) (predict : List ℕ → ℤ) (scores : Scores) (k : ℕ) (ks : List ℕ) :
    brittleness enum none labels predict scores (some (k :: ks)) = .error .attributeError := by
  cases scores <;> rfl

end Verif.Brittle
