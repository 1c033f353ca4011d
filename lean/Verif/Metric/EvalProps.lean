import Verif.Metric.EvalModel
import Verif.Metric.LDSProps
import Verif.Metric.LooProps
import Verif.Metric.RetrainProps2

/-! # C154: the evaluations rate exact scores as perfect -/

namespace Verif.Metric

open Verif Verif.Retrain Finset

variable {M ρ : Type} [DecidableEq ρ]

/-! ### Helper lemmas -/

theorem cross_const {m : ℕ} (x y : Fin m → ℝ) (h : ∀ i j, y i = y j) : cross x y = 0 := by
  unfold cross
  refine Finset.sum_eq_zero fun i _ => ?_
  have : mean y = y i := by
    unfold mean
    rw [Finset.sum_congr rfl fun j _ => h j i, Finset.sum_const, Finset.card_univ, Fintype.card_fin, nsmul_eq_mul]
    have : (m : ℝ) ≠ 0 := by
      have := i.pos
      positivity
    field_simp
  rw [this]
  ring

theorem mean_affine {m : ℕ} (hm : m ≠ 0) (x : Fin m → ℝ) (a b : ℝ) : mean (fun i => a + b * x i) = a + b * mean x := by
  have : (m : ℝ) ≠ 0 := by exact_mod_cast hm
  unfold mean
  rw [Finset.sum_add_distrib, Finset.sum_const, Finset.card_univ, Fintype.card_fin, nsmul_eq_mul, ← Finset.mul_sum]
  field_simp

open Classical in
/-- The correlation of numbers with an affine function of them. -/
theorem pearson_affine {m : ℕ} (x : Fin m → ℝ) (a b : ℝ) (hb : b ≠ 0) :
    pearson x (fun i => a + b * x i) = if ∀ i j, x i = x j then none else some (if 0 < b then 1 else -1) := by
  rcases Nat.eq_zero_or_pos m with rfl | hm
  · rw [if_pos fun i => i.elim0]
    unfold pearson
    rw [if_pos (Or.inl (by simp [cross]))]
  have h1 : cross x (fun i => a + b * x i) = b * cross x x := by
    unfold cross
    rw [mean_affine hm.ne', Finset.mul_sum]
    exact Finset.sum_congr rfl fun i _ => by ring
  have h2 : cross (fun i => a + b * x i) (fun i => a + b * x i) = b ^ 2 * cross x x := by
    unfold cross
    rw [mean_affine hm.ne', Finset.mul_sum]
    exact Finset.sum_congr rfl fun i _ => by ring
  unfold pearson
  rw [h1, h2]
  by_cases hc : ∀ i j, x i = x j
  · rw [if_pos hc, if_pos (Or.inl (cross_const x x hc))]
  · have hne : cross x x ≠ 0 := by rw [Ne, cross_self_eq_zero]; exact hc
    have hpos := lt_of_le_of_ne (cross_self_nonneg x) (Ne.symm hne)
    rw [if_neg hc, if_neg (by rintro (h | h); exacts [hne h, (mul_ne_zero (pow_ne_zero 2 hb) hne) h])]
    congr 1
    rw [Real.sqrt_mul (sq_nonneg b), Real.sqrt_sq_eq_abs]
    have hs : Real.sqrt (cross x x) * (|b| * Real.sqrt (cross x x)) = |b| * cross x x := by
      rw [mul_left_comm, Real.mul_self_sqrt hpos.le]
    rw [hs, mul_div_mul_right _ _ hne]
    rcases lt_or_gt_of_ne hb with h | h
    · rw [abs_of_neg h, if_neg (not_lt.2 h.le), div_neg, div_self hb]
    · rw [abs_of_pos h, if_pos h, div_self hb]

open Classical in
/-- `lds` on a ground truth that depends monotonically on the sums of the scores. -/
theorem lds_monotone (nTrain nTest num : ℕ) (score : ℕ → ℕ → ℝ) (val : ℕ → ℕ → ℝ) (sub : ℕ → List ℕ) (φ : ℕ → ℝ → ℝ) (up : Bool)
    (hin : ∀ i < num, ∀ k ∈ sub i, k < nTrain)
    (hφ : ∀ t < nTest, if up then StrictMono (φ t) else StrictAnti (φ t))
    (hv : ∀ i < num, ∀ t < nTest, val i t = φ t (((sub i).map fun k => score k t).sum)) :
    ldsPair nTrain nTest score ((List.range num).map (fun i t => some (val i t)), (List.range num).map sub) =
      .ok ((List.range nTest).map fun t => if ∀ i < num, ∀ j < num, ((sub i).map fun k => score k t).sum = ((sub j).map fun k => score k t).sum
        then none else some (if up then 1 else -1)) := by
  set gt : List (ℕ → Option ℝ) × List (List ℕ) := ((List.range num).map (fun i t => some (val i t)), (List.range num).map sub) with hgt
  have hlen : gt.2.length = num := by simp [hgt]
  have hsub : ∀ i : Fin gt.2.length, gt.2.getD i [] = sub i := by
    intro i
    have : (i : ℕ) < num := hlen ▸ i.isLt
    simp [hgt, List.getD_eq_getElem?_getD, this]
  have hval : ∀ (i : Fin gt.2.length) t, ((gt.1.getD i fun _ => none) t).getD 0 = val i t := by
    intro i t
    have : (i : ℕ) < num := hlen ▸ i.isLt
    simp [hgt, List.getD_eq_getElem?_getD, this]
  unfold ldsPair lds
  rw [if_neg]
  · simp only [Except.map]
    congr 1
    have hno : ∀ t, ¬ ∃ v ∈ gt.1, v t = none := by
      rintro t ⟨v, hv, h0⟩
      rw [hgt, List.mem_map] at hv
      obtain ⟨i, -, rfl⟩ := hv
      cases h0
    simp only [hno, if_false]
    have hid : ∀ l : List (Option ℝ), l.mapIdx (fun _ r => r) = l := by
      intro l
      induction l with
      | nil => rfl
      | cons a l ih => rw [List.mapIdx_cons, ih]
    rw [hid]
    refine List.map_congr_left fun t ht => ?_
    rw [List.mem_range] at ht
    set x : Fin gt.2.length → ℝ := sumScores score (fun i => gt.2.getD i []) t with hx
    have hxi : ∀ i, x i = ((sub i).map fun k => score k t).sum := fun i => by rw [hx]; simp only [sumScores, hsub]
    have hy : (fun i : Fin gt.2.length => ((gt.1.getD i fun _ => none) t).getD 0) = fun i => φ t (x i) := by
      funext i
      rw [hval, hv i (hlen ▸ i.isLt) t ht, hxi]
    rw [hy]
    by_cases hc : ∀ i < num, ∀ j < num, ((sub i).map fun k => score k t).sum = ((sub j).map fun k => score k t).sum
    · rw [if_pos hc]
      by_contra hne
      obtain ⟨⟨i, j, hij⟩, -⟩ := (C41_defined_iff x fun i => φ t (x i)).1 hne
      exact hij (by rw [hxi, hxi]; exact hc _ (hlen ▸ i.isLt) _ (hlen ▸ j.isLt))
    · rw [if_neg hc]
      push Not at hc
      obtain ⟨i, hi, j, hj, hij⟩ := hc
      have hxx : ∃ i j, x i ≠ x j := ⟨⟨i, hlen.symm ▸ hi⟩, ⟨j, hlen.symm ▸ hj⟩, by rw [hxi, hxi]; exact hij⟩
      have := hφ t ht
      cases up with
      | true => exact (C41_perfect x _ hxx).1 fun i j => (StrictMono.lt_iff_lt (by simpa using this)).symm
      | false => exact (C41_perfect x _ hxx).2 fun i j => (StrictAnti.lt_iff_gt (by simpa using this)).symm
  · rintro ⟨i, k, hk, hle⟩
    dsimp only at hk
    rw [hsub] at hk
    have := hin i (hlen ▸ i.isLt) k hk
    omega

/-! ### C154 -/

/-- **C154** (no runs). Retraining with zero runs per subset leaves nothing to average: `lds` then gives NaN for every test sample, whatever the scores. -/
theorem C154_no_runs (choice : ℕ → ℕ → ℕ → List ℕ) (train : List ℕ → ℕ → M) (root : ρ) (n k seed : ℕ) (w : Worker) (hv : w.Valid) (hk : k ≤ n)
    (hone : w.total = 0 ∨ (w.start = 0 ∧ (w.num : ℤ) = w.total)) (hchoice : ∀ s, (choice s n k).length = k ∧ ∀ x ∈ choice s n k, x < n)
    (hnum : 0 < w.num) (target : M → ℕ → ℝ) (fs : FS ρ M) (nTest : ℕ) (score : ℕ → ℕ → ℝ) :
    evalLds target root (applyWrites fs (w.run choice train root n k 0 seed).1) n nTest score = .ok (List.replicate nTest none) := by
  unfold evalLds
  rw [C46_round_trip choice train root n k 0 seed w hv hk hone (fun s => (hchoice s).1) target fs]
  simp only [bind, Except.bind, if_true]
  unfold ldsPair lds
  rw [if_neg]
  · simp only [Except.map]
    congr 1
    apply List.ext_getElem
    · simp
    · intro t h1 h2
      simp only [List.getElem_mapIdx, List.getElem_replicate]
      rw [if_pos]
      exact ⟨fun _ => none, List.mem_map.2 ⟨0, List.mem_range.2 hnum, rfl⟩, rfl⟩
  · rintro ⟨i, x, hx, hn⟩
    have hi : (i : ℕ) < w.num := by simpa using i.isLt
    simp only [List.getD_eq_getElem?_getD, List.getElem?_map, List.getElem?_range hi, Option.map_some, Option.getD_some] at hx
    exact absurd ((hchoice _).2 x hx) (by omega)

open Classical in
/-- **C154** (subset retraining). If the mean target of the models trained on a subset decreases strictly with the sum of the scores of the subset, then
retraining with `retrain_lds`, reading the ground truth and `lds` gives correlation 1 for every test sample, and NaN for those for which all subsets
have the same sum. If it increases strictly, the correlation is -1. -/
theorem C154_lds (choice : ℕ → ℕ → ℕ → List ℕ) (train : List ℕ → ℕ → M) (root : ρ) (n k runs seed : ℕ) (w : Worker) (hv : w.Valid) (hk : k ≤ n)
    (hone : w.total = 0 ∨ (w.start = 0 ∧ (w.num : ℤ) = w.total)) (hchoice : ∀ s, (choice s n k).length = k ∧ ∀ x ∈ choice s n k, x < n)
    (hruns : runs ≠ 0) (target : M → ℕ → ℝ) (fs : FS ρ M) (nTest : ℕ) (score : ℕ → ℕ → ℝ) (φ : ℕ → ℝ → ℝ) (down : Bool)
    (hφ : ∀ t < nTest, if down then StrictAnti (φ t) else StrictMono (φ t))
    (hs : ∀ i < w.num, ∀ t < nTest, (∑ j ∈ range runs, target (train (choice (seed + i) n k) (seed + i * runs + j)) t) / runs =
      φ t (((choice (seed + i) n k).map fun x => score x t).sum)) :
    evalLds target root (applyWrites fs (w.run choice train root n k runs seed).1) n nTest score =
      .ok ((List.range nTest).map fun t => if ∀ i < w.num, ∀ j < w.num,
        ((choice (seed + i) n k).map fun x => score x t).sum = ((choice (seed + j) n k).map fun x => score x t).sum then none
        else some (if down then 1 else -1)) := by
  unfold evalLds
  rw [C46_round_trip choice train root n k runs seed w hv hk hone (fun s => (hchoice s).1) target fs]
  simp only [bind, Except.bind, hruns, if_false]
  refine lds_monotone n nTest w.num score (fun i t => -((∑ j ∈ range runs, target (train (choice (seed + i) n k) (seed + i * runs + j)) t) / runs))
    (fun i => choice (seed + i) n k) (fun t x => -φ t x) down (fun i _ x hx => (hchoice _).2 x hx) (fun t ht => ?_) fun i hi t ht => by rw [hs i hi t ht]
  have := hφ t ht
  cases down with
  | true =>
    rw [if_pos rfl] at this ⊢
    exact fun a b hab => neg_lt_neg (this hab)
  | false =>
    rw [if_neg (by simp)] at this ⊢
    exact fun a b hab => neg_lt_neg (this hab)

open Classical in
/-- **C154** (leave-one-out retraining). If the target of the model trained without sample `i` is an affine function of the score of `i` with a positive slope,
then retraining with `retrain_loo`, reading the ground truth in any listing order and `loo_corr` gives correlation 1 for every test sample (NaN for equal
scores); with a negative slope -1. -/
theorem C154_loo (train : List ℕ → Option ℕ → M) (n : ℕ) (hn : 2 ≤ n) (seed : Option ℕ) (target : M → ℕ → ℝ) (listing : List (Entry M))
    (hl : (listing.filter fun e => decide (Relevant e)).Perm ((retrainLoo train n none seed).map fun d => ⟨d.1, true, some d.2⟩))
    (nTest : ℕ) (score : ℕ → ℕ → ℝ) (a b : ℕ → ℝ) (hb : ∀ t < nTest, b t ≠ 0)
    (hs : ∀ i < n, ∀ t < nTest, target (train ((List.range n).filter (· ≠ i)) seed) t = a t + b t * score i t) :
    evalLoo target listing n nTest score =
      .ok ((List.range nTest).map fun t => if ∀ i < n, ∀ j < n, score i t = score j t then none else some (if 0 < b t then 1 else -1)) := by
  unfold evalLoo
  rw [C47_round_trip train n seed target listing hl]
  simp only [bind, Except.bind, List.length_map, List.length_range]
  rw [C42_loo_corr_full n nTest _ _ _ hn]
  congr 1
  refine List.map_congr_left fun t ht => ?_
  rw [List.mem_range] at ht
  have hy : (fun i : Fin n => (((List.range n).map fun i => target (train ((List.range n).filter (· ≠ i)) seed)).getD i fun _ => 0) t) =
      fun i : Fin n => a t + b t * score i t := by
    funext i
    rw [← hs i i.isLt t ht]
    simp [List.getD_eq_getElem?_getD]
  rw [hy, pearson_affine (fun i : Fin n => score i t) (a t) (b t) (hb t ht)]
  have : (∀ i j : Fin n, score i t = score j t) ↔ ∀ i < n, ∀ j < n, score i t = score j t :=
    ⟨fun h i hi j hj => h ⟨i, hi⟩ ⟨j, hj⟩, fun h i j => h i i.isLt j j.isLt⟩
  simp only [this]

open Classical in
/-- **C154** (one sign for both). If training on a set of samples gives the target `C t` minus the sum of the scores of the set, whatever the seed, both
evaluations rate these scores 1. -/
theorem C154_additive (choice : ℕ → ℕ → ℕ → List ℕ) (train : List ℕ → ℕ → M) (trainLoo : List ℕ → Option ℕ → M) (root : ρ) (n k runs seed : ℕ) (w : Worker)
    (hv : w.Valid) (hk : k ≤ n) (hone : w.total = 0 ∨ (w.start = 0 ∧ (w.num : ℤ) = w.total))
    (hchoice : ∀ s, (choice s n k).length = k ∧ ∀ x ∈ choice s n k, x < n) (hruns : runs ≠ 0) (hn : 2 ≤ n) (target : M → ℕ → ℝ) (fs : FS ρ M)
    (listing : List (Entry M)) (seedLoo : Option ℕ)
    (hl : (listing.filter fun e => decide (Relevant e)).Perm ((retrainLoo trainLoo n none seedLoo).map fun d => ⟨d.1, true, some d.2⟩))
    (nTest : ℕ) (score : ℕ → ℕ → ℝ) (C : ℕ → ℝ)
    (hs : ∀ S s t, target (train S s) t = C t - (S.map fun x => score x t).sum)
    (hs' : ∀ S s t, target (trainLoo S s) t = C t - (S.map fun x => score x t).sum) :
    evalLds target root (applyWrites fs (w.run choice train root n k runs seed).1) n nTest score =
      .ok ((List.range nTest).map fun t => if ∀ i < w.num, ∀ j < w.num,
        ((choice (seed + i) n k).map fun x => score x t).sum = ((choice (seed + j) n k).map fun x => score x t).sum then none else some 1) ∧
    evalLoo target listing n nTest score =
      .ok ((List.range nTest).map fun t => if ∀ i < n, ∀ j < n, score i t = score j t then none else some 1) := by
  constructor
  · have := C154_lds choice train root n k runs seed w hv hk hone hchoice hruns target fs nTest score (fun t x => C t - x) true
      (fun t _ => by rw [if_pos rfl]; exact fun a b hab => by simpa using hab) (fun i hi t ht => by
        simp only [hs, Finset.sum_const, Finset.card_range, nsmul_eq_mul]
        have : (runs : ℝ) ≠ 0 := by exact_mod_cast hruns
        field_simp)
    simpa using this
  · have := C154_loo trainLoo n hn seedLoo target listing hl nTest score (fun t => C t - ((List.range n).map fun x => score x t).sum) (fun _ => 1)
      (fun _ _ => one_ne_zero) (fun i hi t ht => by
        rw [hs']
        have hsum : ((List.range n).map fun x => score x t).sum = score i t + (((List.range n).filter (· ≠ i)).map fun x => score x t).sum := by
          have hp : (List.range n).Perm (i :: (List.range n).filter (· ≠ i)) := by
            rw [List.perm_ext_iff_of_nodup List.nodup_range (List.nodup_cons.2 ⟨by simp, List.nodup_range.filter _⟩)]
            intro x
            simp only [List.mem_range, List.mem_cons, List.mem_filter, decide_eq_true_eq]
            constructor
            · intro h
              by_cases hx : x = i
              · exact Or.inl hx
              · exact Or.inr ⟨h, by simpa using hx⟩
            · rintro (rfl | h)
              exacts [hi, h.1]
          rw [(hp.map _).sum_eq, List.map_cons, List.sum_cons]
        rw [hsum]
        ring)
    rw [this]
    simp

/-- Two samples of four for each of three subsets, an additive target with score `k + 1`: the hypotheses hold and the sums are not constant. -/
example : ∃ (choice : ℕ → ℕ → ℕ → List ℕ) (w : Worker), w.Valid ∧ (w.total = 0 ∨ (w.start = 0 ∧ (w.num : ℤ) = w.total)) ∧
    (∀ s, (choice s 4 2).length = 2 ∧ ∀ x ∈ choice s 4 2, x < 4) ∧
    (∀ (S : List ℕ) (t : ℕ), (fun (m : List ℕ) (t : ℕ) => (10 : ℝ) - (m.map fun x => ((x + 1 : ℕ) : ℝ)).sum) S t = 10 - (S.map fun x => ((x + 1 : ℕ) : ℝ)).sum) ∧
    ((choice (0 + 0) 4 2).map fun x => ((x + 1 : ℕ) : ℝ)).sum ≠ ((choice (0 + 1) 4 2).map fun x => ((x + 1 : ℕ) : ℝ)).sum := by
  refine ⟨fun s _ _ => if s = 0 then [0, 1] else [1, 3], ⟨0, 3, 0⟩, ⟨by decide, by decide, by decide⟩, Or.inl rfl, fun s => ?_, fun _ _ => rfl, ?_⟩
  · dsimp only
    split_ifs <;> simp
  · norm_num

end Verif.Metric
