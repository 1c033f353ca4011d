import Verif.Script.ExamplesModel
import Verif.Metric.AUCProps
import Mathlib.Algebra.Order.BigOperators.Group.Finset

/-!
# C186, C187: data cleaning and wrong labels in the example scripts

`IsOrder` (C38) is the contract of the sort: a permutation of the indices with non-increasing scores.
-/

namespace Verif.Examples

open Finset Verif.Metric

/-! ### Helper lemmas -/

theorem order_nodup {n : ℕ} {score : ℕ → ℚ} {order : List ℕ} (h : IsOrder n score order) : order.Nodup := h.perm.nodup_iff.2 List.nodup_range

theorem order_length {n : ℕ} {score : ℕ → ℚ} {order : List ℕ} (h : IsOrder n score order) : order.length = n := by simpa using h.perm.length_eq

/-- Everything after a position of the order scores at most what everything before it scores. -/
theorem order_split {n : ℕ} {score : ℕ → ℚ} {order : List ℕ} (h : IsOrder n score order) (k : ℕ) :
    ∀ i ∈ order.take k, ∀ j ∈ order.drop k, score j ≤ score i := by
  have := h.sorted
  rw [← List.take_append_drop k order, List.pairwise_append] at this
  exact fun i hi j hj => this.2.2 i hi j hj

theorem kept_mem {n : ℕ} {score : ℕ → ℚ} {order : List ℕ} (h : IsOrder n score order) (k : ℕ) (i : ℕ) :
    (i < n ∧ i ∉ order.drop k) ↔ i ∈ order.take k := by
  have hi : i < n ↔ i ∈ order := by rw [h.perm.mem_iff, List.mem_range]
  have hnd := order_nodup h
  rw [← List.take_append_drop k order, List.nodup_append] at hnd
  constructor
  · rintro ⟨h1, h2⟩
    rw [hi, ← List.take_append_drop k order, List.mem_append] at h1
    exact h1.resolve_right h2
  · intro h1
    exact ⟨hi.2 (List.mem_of_mem_take h1), fun h2 => hnd.2.2 i h1 i h2 rfl⟩

/-- The indices left when the order is cut at `k`. -/
theorem kept_perm {n : ℕ} {score : ℕ → ℚ} {order : List ℕ} (h : IsOrder n score order) (k : ℕ) :
    ((List.range n).filter fun i => i ∉ order.drop k).Perm (order.take k) := by
  refine (List.perm_ext_iff_of_nodup (List.nodup_range.filter _) ((order_nodup h).sublist (List.take_sublist _ _))).2 fun i => ?_
  rw [List.mem_filter, List.mem_range, decide_eq_true_iff, kept_mem h]

/-- If the elements of `R` outside `A` are at most those of `A` outside `R`, and the sets have the same size, then so are the sums. -/
theorem sum_le_of_exchange (s : ℕ → ℚ) (R A : Finset ℕ) (hc : R.card = A.card) (h : ∀ x ∈ R \ A, ∀ y ∈ A \ R, s x ≤ s y) : ∑ i ∈ R, s i ≤ ∑ i ∈ A, s i := by
  have hc' : (R \ A).card = (A \ R).card := by
    have h1 := card_sdiff_add_card_inter R A
    have h2 := card_sdiff_add_card_inter A R
    rw [inter_comm A R] at h2
    omega
  have hR : ∑ i ∈ R, s i = ∑ i ∈ R \ A, s i + ∑ i ∈ R ∩ A, s i := by
    rw [← sum_sdiff (inter_subset_left : R ∩ A ⊆ R), sdiff_inter_self_left]
  have hA : ∑ i ∈ A, s i = ∑ i ∈ A \ R, s i + ∑ i ∈ R ∩ A, s i := by
    rw [← sum_sdiff (inter_subset_right : R ∩ A ⊆ A), sdiff_inter_self_right]
  rw [hR, hA]
  refine add_le_add_left ?_ _
  rcases (A \ R).eq_empty_or_nonempty with h0 | h0
  · have : R \ A = ∅ := by rw [← card_eq_zero, hc', h0, card_empty]
    rw [h0, this]
  · obtain ⟨t, ht, hmin⟩ := exists_min_image (A \ R) s h0
    calc ∑ i ∈ R \ A, s i ≤ (R \ A).card • s t := sum_le_card_nsmul _ _ _ fun x hx => h x hx t ht
      _ = (A \ R).card • s t := by rw [hc']
      _ ≤ ∑ i ∈ A \ R, s i := card_nsmul_le_sum _ _ _ hmin

theorem dropFrom_neg {α : Type} (r : ℕ) (l : List α) (hr : 0 < r) : dropFrom (-(r : ℤ)) l = l.drop (l.length - r) := by
  unfold dropFrom
  rw [if_neg (by omega)]
  congr 1
  omega

/-! ### C186 -/

/-- **C186.** Removing `r` samples, `0 < r ≤ n`: `n - r` samples are kept, in their old order, and every removed sample has a mean score at most that of every kept
one. -/
theorem C186_removed (n m r : ℕ) (M : ℕ → ℕ → ℚ) (order : List ℕ) (h : IsOrder n (rowMean m M) order) (hr : 0 < r) (hrn : r ≤ n) :
    (newTrainingSet n order r).length = n - r ∧ (newTrainingSet n order r).Pairwise (· < ·) ∧ (∀ i ∈ newTrainingSet n order r, i < n) ∧
      ∀ i ∈ newTrainingSet n order r, ∀ j < n, j ∉ newTrainingSet n order r →
        (∑ t ∈ range m, M j t) / m ≤ (∑ t ∈ range m, M i t) / m := by
  have hd : dropFrom (-(r : ℤ)) order = order.drop (n - r) := by rw [dropFrom_neg r order hr, order_length h]
  have hmem : ∀ i, i ∈ newTrainingSet n order r ↔ i ∈ order.take (n - r) := by
    intro i
    unfold newTrainingSet
    rw [hd]
    exact (kept_perm h (n - r)).mem_iff
  refine ⟨?_, ?_, ?_, ?_⟩
  · unfold newTrainingSet
    rw [hd, (kept_perm h (n - r)).length_eq, List.length_take, order_length h]
    omega
  · exact List.Pairwise.filter _ List.pairwise_lt_range
  · intro i hi
    exact List.mem_range.1 (List.mem_filter.1 hi).1
  · intro i hi j hj hnj
    refine order_split h (n - r) i ((hmem i).1 hi) j ?_
    have h1 : j ∈ order := by rw [h.perm.mem_iff, List.mem_range]; exact hj
    rw [← List.take_append_drop (n - r) order, List.mem_append] at h1
    exact h1.resolve_left fun h2 => hnj ((hmem j).2 h2)

/-- **C186** (the choice). No other set of `r` samples has a smaller sum of mean scores: by C140 the script removes the samples whose removal promises the largest
decrease of the mean validation loss. -/
theorem C186_best (n m r : ℕ) (M : ℕ → ℕ → ℚ) (order : List ℕ) (h : IsOrder n (rowMean m M) order) (hr : 0 < r) (hrn : r ≤ n) (A : Finset ℕ)
    (hA : A ⊆ range n) (hcard : A.card = r) :
    ∑ i ∈ range n \ (newTrainingSet n order r).toFinset, rowMean m M i ≤ ∑ i ∈ A, rowMean m M i := by
  obtain ⟨h1, h2, h3, h4⟩ := C186_removed n m r M order h hr hrn
  have hnd : (newTrainingSet n order r).Nodup := List.nodup_range.filter _
  apply sum_le_of_exchange
  · rw [card_sdiff_of_subset (fun i hi => mem_range.2 (h3 i (List.mem_toFinset.1 hi))), card_range, List.toFinset_card_of_nodup hnd, h1, hcard]
    omega
  · intro x hx y hy
    simp only [mem_sdiff, mem_range, List.mem_toFinset] at hx hy
    have hyn : y < n := mem_range.1 (hA hy.1)
    have hyk : y ∈ newTrainingSet n order r := by
      by_contra hc
      exact hy.2 ⟨hyn, hc⟩
    exact h4 y hyk x hx.1.1 hx.1.2

/-- **C186 (disagreement).** With `--remove_number 0` every sample is removed, as with `n` or more; with a negative number `-k` all but the `k` samples with the
highest mean scores are removed. -/
theorem C186_zero (n m : ℕ) (M : ℕ → ℕ → ℚ) (order : List ℕ) (h : IsOrder n (rowMean m M) order) :
    newTrainingSet n order 0 = [] ∧ (∀ r : ℕ, n ≤ r → newTrainingSet n order r = []) ∧
      ∀ k : ℕ, 0 < k → k ≤ n → (newTrainingSet n order (-(k : ℤ))).length = k ∧
        ∀ i ∈ newTrainingSet n order (-(k : ℤ)), ∀ j < n, j ∉ newTrainingSet n order (-(k : ℤ)) → rowMean m M j ≤ rowMean m M i := by
  have hall : ∀ r : ℤ, dropFrom (-r) order = order → newTrainingSet n order r = [] := by
    intro r hd
    unfold newTrainingSet
    rw [hd, List.filter_eq_nil_iff]
    intro i hi
    simpa using h.perm.mem_iff.2 hi
  refine ⟨hall 0 (by simp [dropFrom]), fun r hr => ?_, fun k hk hkn => ?_⟩
  · rcases Nat.eq_zero_or_pos r with rfl | hpos
    · exact hall 0 (by simp [dropFrom])
    · apply hall
      rw [dropFrom_neg r order hpos, order_length h, Nat.sub_eq_zero_of_le hr, List.drop_zero]
  · have hd : dropFrom (-(-(k : ℤ))) order = order.drop k := by
      unfold dropFrom
      rw [if_pos (by omega)]
      congr 1
      omega
    have hmem : ∀ i, i ∈ newTrainingSet n order (-(k : ℤ)) ↔ i ∈ order.take k := by
      intro i
      unfold newTrainingSet
      rw [hd]
      exact (kept_perm h k).mem_iff
    refine ⟨?_, ?_⟩
    · unfold newTrainingSet
      rw [hd, (kept_perm h k).length_eq, List.length_take, order_length h]
      omega
    · intro i hi j hj hnj
      refine order_split h k i ((hmem i).1 hi) j ?_
      have h1 : j ∈ order := by rw [h.perm.mem_iff, List.mem_range]; exact hj
      rw [← List.take_append_drop k order, List.mem_append] at h1
      exact h1.resolve_left fun h2 => hnj ((hmem j).2 h2)

example : newTrainingSet 4 [2, 0, 3, 1] 2 = [0, 2] ∧ newTrainingSet 4 [2, 0, 3, 1] 0 = [] ∧ newTrainingSet 4 [2, 0, 3, 1] (-1) = [2] := by decide

/-! ### C187 -/

theorem table_fold (flips order : List ℕ) :
    order.foldl (tableStep flips) ([], 0, 0) =
      (((List.range order.length).filter fun k : ℕ => k % 100 = 0).map fun k => (k, (order.take k).countP (· ∈ flips)), order.countP (· ∈ flips), order.length) := by
  induction order using List.reverseRecOn with
  | nil => rfl
  | append_singleton l a ih =>
    rw [List.foldl_append, ih, List.foldl_cons, List.foldl_nil, tableStep]
    have hpre : ∀ k, k ≤ l.length → (l ++ [a]).take k = l.take k := fun k hk => List.take_append_of_le_length hk
    simp only [List.length_append, List.length_singleton, List.range_succ, List.filter_append, List.map_append, List.countP_append, List.countP_singleton]
    refine Prod.ext ?_ (Prod.ext ?_ rfl)
    · have hmap : ((List.range l.length).filter fun k : ℕ => k % 100 = 0).map (fun k => (k, (l.take k).countP (· ∈ flips))) =
          ((List.range l.length).filter fun k : ℕ => k % 100 = 0).map (fun k => (k, ((l ++ [a]).take k).countP (· ∈ flips))) := by
        refine List.map_congr_left fun k hk => ?_
        rw [hpre k (List.mem_range.1 (List.mem_filter.1 hk).1).le]
      by_cases h : l.length % 100 = 0
      · simp only [h, if_true]
        rw [hmap]
        simp [h]
      · simp only [h, if_false]
        rw [hmap]
        simp [h]
    · by_cases h : a ∈ flips <;> simp [h]

theorem take_count {n : ℕ} {score : ℕ → ℚ} {order flips : List ℕ} (h : IsOrder n score order) (k : ℕ) :
    (order.take k).countP (· ∈ flips) = tp order flips.toFinset k := by
  unfold tp
  have hnd : (order.take k).Nodup := (order_nodup h).sublist (List.take_sublist _ _)
  rw [List.countP_eq_length_filter, ← List.toFinset_card_of_nodup (hnd.filter _)]
  congr 1
  ext x
  simp

/-- **C187.** The table has a row for `0, 100, 200, …` below the number of samples (none for the number itself); the row for `k` gives the number of wrongly labelled
samples among the `k` with the highest scores. This number is at most `k` and at most the number of wrong labels, never decreases, and is `min k f` for every `k` if
all `f` wrongly labelled samples score higher than all others. -/
theorem C187_table (n : ℕ) (score : ℕ → ℚ) (order flips : List ℕ) (h : IsOrder n score order) (hf : ∀ i ∈ flips, i < n) :
    table order flips = ((List.range n).filter fun k : ℕ => 100 ∣ k).map (fun k => (k, ((order.take k).toFinset ∩ flips.toFinset).card)) ∧
    (∀ k v, (k, v) ∈ table order flips → v ≤ k ∧ v ≤ flips.toFinset.card) ∧
    (∀ k v k' v', (k, v) ∈ table order flips → (k', v') ∈ table order flips → k ≤ k' → v ≤ v' ∧ v' ≤ v + (k' - k)) ∧
    ((∀ i ∈ flips, ∀ j < n, j ∉ flips → score j < score i) → ∀ k v, (k, v) ∈ table order flips → v = min k flips.toFinset.card) := by
  have heq : table order flips = ((List.range n).filter fun k : ℕ => 100 ∣ k).map (fun k => (k, ((order.take k).toFinset ∩ flips.toFinset).card)) := by
    unfold table
    rw [table_fold, order_length h]
    simp only [Nat.dvd_iff_mod_eq_zero]
    exact List.map_congr_left fun k _ => by rw [take_count h, tp]
  have hrow : ∀ k v, (k, v) ∈ table order flips → k < n ∧ v = ((order.take k).toFinset ∩ flips.toFinset).card := by
    intro k v hv
    rw [heq, List.mem_map] at hv
    obtain ⟨k', hk', e⟩ := hv
    obtain ⟨rfl, rfl⟩ := Prod.mk.inj e
    exact ⟨List.mem_range.1 (List.mem_filter.1 hk').1, rfl⟩
  have hcard : ∀ k ≤ n, (order.take k).toFinset.card = k := by
    intro k hk
    rw [List.toFinset_card_of_nodup ((order_nodup h).sublist (List.take_sublist _ _)), List.length_take, order_length h]
    omega
  refine ⟨heq, fun k v hv => ?_, fun k v k' v' hv hv' hk => ?_, fun hperf k v hv => ?_⟩
  · obtain ⟨h1, rfl⟩ := hrow k v hv
    exact ⟨(card_le_card inter_subset_left).trans (hcard k h1.le).le, card_le_card inter_subset_right⟩
  · obtain ⟨h1, rfl⟩ := hrow k v hv
    obtain ⟨h2, rfl⟩ := hrow k' v' hv'
    have hsub : (order.take k).toFinset ⊆ (order.take k').toFinset := by
      intro x hx
      rw [List.mem_toFinset] at hx ⊢
      exact (List.take_subset_take_left order hk) hx
    refine ⟨card_le_card (inter_subset_inter_right hsub), ?_⟩
    have h3 : (order.take k').toFinset ∩ flips.toFinset ⊆ ((order.take k).toFinset ∩ flips.toFinset) ∪ ((order.take k').toFinset \ (order.take k).toFinset) := by
      intro x hx
      simp only [mem_union, mem_inter, mem_sdiff] at hx ⊢
      tauto
    refine (card_le_card h3).trans ((card_union_le _ _).trans ?_)
    rw [card_sdiff_of_subset hsub, hcard k h1.le, hcard k' h2.le]
  · obtain ⟨h1, rfl⟩ := hrow k v hv
    have hsplit := order_split h k
    by_cases hall : ∀ i ∈ flips, i ∈ order.take k
    · have : (order.take k).toFinset ∩ flips.toFinset = flips.toFinset :=
        inter_eq_right.2 fun x hx => List.mem_toFinset.2 (hall x (List.mem_toFinset.1 hx))
      rw [this, eq_comm, min_eq_right]
      rw [← hcard k h1.le]
      exact card_le_card fun x hx => List.mem_toFinset.2 (hall x (List.mem_toFinset.1 hx))
    · push Not at hall
      obtain ⟨i, hi, hni⟩ := hall
      have hid : i ∈ order.drop k := by
        have : i ∈ order := by rw [h.perm.mem_iff, List.mem_range]; exact hf i hi
        rw [← List.take_append_drop k order, List.mem_append] at this
        exact this.resolve_left hni
      have hsub : (order.take k).toFinset ⊆ flips.toFinset := by
        intro j hj
        rw [List.mem_toFinset] at hj ⊢
        by_contra hc
        have hjn : j < n := by
          have := List.mem_of_mem_take hj
          rwa [h.perm.mem_iff, List.mem_range] at this
        exact absurd (hsplit j hj i hid) (not_le.2 (hperf i hi j hjn hc))
      rw [inter_eq_left.2 hsub, eq_comm, hcard k h1.le, min_eq_left]
      rw [← hcard k h1.le]
      exact card_le_card hsub

/-- **C187** (the printed AUC). For distinct scores the AUC printed below the table, times the numbers of wrong and of right labels, is the sum of the counts at the
positions of the correctly labelled samples; the table shows every hundredth of these counts. -/
theorem C187_auc (n : ℕ) (score : ℕ → ℚ) (hinj : ∀ i < n, ∀ j < n, score i = score j → i = j) (order order' flips : List ℕ) (h : IsOrder n score order)
    (h' : IsOrder n score order') (hf : ∀ i ∈ flips, i < n) (h0 : flips ≠ []) (h1 : ∃ j < n, j ∉ flips) :
    ∃ v l, auc n order' flips.toFinset = .ok (v, l) ∧
      v * (flips.toFinset.card * (n - flips.toFinset.card)) =
        ∑ k ∈ range n, if order.getD k 0 ∈ flips then 0 else (((order.take k).toFinset ∩ flips.toFinset).card : ℚ) := by
  have hsub : flips.toFinset ⊆ range n := fun i hi => mem_range.2 (hf i (List.mem_toFinset.1 hi))
  have hne : flips.toFinset.Nonempty := List.toFinset_nonempty_iff _ |>.2 h0
  have hne' : (range n \ flips.toFinset).Nonempty := by
    obtain ⟨j, hj, hjf⟩ := h1
    exact ⟨j, by simp [hj, hjf]⟩
  obtain ⟨l, hl⟩ := C38_auc_mann_whitney h.perm hsub hne hne'
  obtain ⟨l', hl'⟩ := C38_auc_mann_whitney h'.perm hsub hne hne'
  have hv := C38_auc_monotone_invariant hinj id strictMono_id h (by simpa using h') hsub hne hne' _ _ _ _ hl hl'
  refine ⟨_, _, hl', ?_⟩
  have hle : flips.toFinset.card ≤ n := by simpa using card_le_card hsub
  have hc : ((range n \ flips.toFinset).card : ℚ) = n - flips.toFinset.card := by
    rw [card_sdiff_of_subset hsub, card_range, Nat.cast_sub hle]
  have hp : (flips.toFinset.card : ℚ) ≠ 0 := by exact_mod_cast hne.card_pos.ne'
  have hq : ((range n \ flips.toFinset).card : ℚ) ≠ 0 := by exact_mod_cast hne'.card_pos.ne'
  rw [← hv, ← hc, div_mul_cancel₀ _ (mul_ne_zero hp hq), card_goodPairs h.perm hsub]
  simp only [List.mem_toFinset, tp]

example : IsOrder 4 (rowMean 1 fun i _ => [3, 1, 4, 2].getD i 0) [2, 0, 3, 1] := ⟨by decide, by decide +kernel⟩
example : table (List.range 250) [0, 1, 99, 100, 249] = [(0, 0), (100, 3), (200, 4)] := by decide +kernel

end Verif.Examples
