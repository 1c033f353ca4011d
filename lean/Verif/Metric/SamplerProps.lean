import Verif.Metric.SamplerModel
import Verif.Metric.EvalProps
import Verif.Metric.BrittleProps

/-! # C226: evaluating scores of a loader with a sampler -/

namespace Verif.Metric

open Verif Verif.Retrain Finset

variable {X M ρ : Type}

/-! ### Helper lemmas -/

theorem spearman_cast {m n : ℕ} (h : m = n) (f g : ℕ → ℝ) :
    spearman (m := m) (fun i => f i) (fun i => g i) = spearman (m := n) (fun i => f i) (fun i => g i) := by subst h; rfl

theorem rowScores_eq (data : ℕ → X) (σ : List ℕ) (s : X → ℕ → ℝ) (r t : ℕ) (h : r < σ.length) : rowScores data σ s r t = s (data σ[r]) t := by
  simp [rowScores, yields, h]

/-- Negative cross product: a negative correlation. -/
theorem pearson_neg {m : ℕ} (x y : Fin m → ℝ) (h : cross x y < 0) : ∃ r < 0, pearson x y = some r := by
  have hx : cross x x ≠ 0 := by
    intro h0
    rw [cross_self_eq_zero] at h0
    have := cross_const y x h0
    have hc : cross x y = cross y x := Finset.sum_congr rfl fun i _ => mul_comm _ _
    rw [hc, this] at h
    exact lt_irrefl _ h
  have hy : cross y y ≠ 0 := by
    intro h0
    rw [cross_self_eq_zero] at h0
    rw [cross_const x y h0] at h
    exact lt_irrefl _ h
  refine ⟨_, ?_, by unfold pearson; rw [if_neg (by rintro (h | h); exacts [hx h, hy h])]⟩
  have h1 := Real.sqrt_pos.2 (lt_of_le_of_ne (cross_self_nonneg x) (Ne.symm hx))
  have h2 := Real.sqrt_pos.2 (lt_of_le_of_ne (cross_self_nonneg y) (Ne.symm hy))
  exact div_neg_of_neg_of_pos h (mul_pos h1 h2)

theorem cross_eq {m : ℕ} (hm : m ≠ 0) (x y : Fin m → ℝ) : cross x y = ∑ i, x i * y i - (∑ i, x i) * (∑ i, y i) / m := by
  have h0 : (m : ℝ) ≠ 0 := by exact_mod_cast hm
  have : ∀ i, (x i - mean x) * (y i - mean y) = x i * y i - mean x * y i - mean y * x i + mean x * mean y := fun i => by ring
  unfold cross
  simp only [this, Finset.sum_add_distrib, Finset.sum_sub_distrib, ← Finset.mul_sum, Finset.sum_const, Finset.card_univ, Fintype.card_fin,
    nsmul_eq_mul]
  unfold mean
  field_simp
  ring

theorem cross_shift {m : ℕ} (hm : m ≠ 0) (x y : Fin m → ℝ) (c : ℝ) : cross x (fun i => c + y i) = cross x y := by
  have h0 : (m : ℝ) ≠ 0 := by exact_mod_cast hm
  rw [cross_eq hm, cross_eq hm]
  simp only [mul_add, Finset.sum_add_distrib, ← Finset.sum_mul, Finset.sum_const, Finset.card_univ, Fintype.card_fin, nsmul_eq_mul]
  field_simp
  ring

theorem pearson_shift {m : ℕ} (hm : m ≠ 0) (x y : Fin m → ℝ) (c : ℝ) : pearson x (fun i => c + y i) = pearson x y := by
  have h1 := cross_shift hm x y c
  have h2 : cross (fun i => c + y i) (fun i => c + y i) = cross y y := by
    rw [cross_shift hm]
    have : cross (fun i => c + y i) y = cross y (fun i => c + y i) := Finset.sum_congr rfl fun i _ => mul_comm _ _
    rw [this, cross_shift hm]
  unfold pearson
  rw [h1, h2]

/-- A sampler other than `0, …, n-1` has a place that holds another position. -/
theorem moved_of_ne (σ : List ℕ) (h : σ ≠ List.range σ.length) : ∃ a, ∃ ha : a < σ.length, σ[a] ≠ a := by
  by_contra hc
  push Not at hc
  exact h (List.ext_getElem (by simp) fun i h1 h2 => by rw [List.getElem_range]; exact hc i h1)

/-! ### C226 -/

/-- **C226** (what `lds` compares). For the scores of a loader with sampler `σ`, the subset drawn as `idx` contributes the scores of the samples at the
positions `σ[p]`, `p ∈ idx`; the model it is compared with was trained on the samples at the positions `p` themselves. -/
theorem C226_lds [DecidableEq ρ] (choice : ℕ → ℕ → ℕ → List ℕ) (train : List X → ℕ → M) (root : ρ) (data : ℕ → X) (σ : List ℕ) (k num runs seed : ℕ)
    (hk : k ≤ σ.length) (hnum : num ≠ 0) (hruns : runs ≠ 0) (hchoice : ∀ s, (choice s σ.length k).length = k ∧ ∀ x ∈ choice s σ.length k, x < σ.length)
    (target : M → ℕ → ℝ) (fs : FS ρ M) (nTest : ℕ) (s : X → ℕ → ℝ) :
    ldsOfLoader choice train root data σ k num runs seed target fs nTest s = .ok ((List.range nTest).map fun t => spearman (m := num)
      (fun i => ((choice (seed + i) σ.length k).map fun p => s (data (σ.getD p 0)) t).sum)
      (fun i => -((∑ j ∈ range runs, target (train ((choice (seed + i) σ.length k).map data) (seed + i * runs + j)) t) / runs))) := by
  have hrt := C46_round_trip choice (onSubset data train) root σ.length k runs seed ⟨0, num, 0⟩ ⟨le_refl _, hnum, by simp⟩ hk (Or.inl rfl)
    (fun s => (hchoice s).1) target fs
  simp only [Worker.run, hruns, if_false] at hrt
  unfold ldsOfLoader evalLds
  rw [hrt]
  simp only [bind, Except.bind]
  set val : ℕ → ℕ → ℝ := fun i t =>
    -((∑ j ∈ range runs, target (onSubset data train (choice (seed + i) σ.length k) (seed + i * runs + j)) t) / runs) with hval
  set sub : ℕ → List ℕ := fun i => choice (seed + i) σ.length k with hsubdef
  set gt : List (ℕ → Option ℝ) × List (List ℕ) := ((List.range num).map (fun i t => some (val i t)), (List.range num).map sub) with hgt
  have hlen : gt.2.length = num := by simp [hgt]
  have hsub : ∀ i : Fin gt.2.length, gt.2.getD i [] = sub i := by
    intro i
    have : (i : ℕ) < num := hlen ▸ i.isLt
    simp [hgt, List.getD_eq_getElem?_getD, this]
  have hv : ∀ (i : Fin gt.2.length) t, ((gt.1.getD i fun _ => none) t).getD 0 = val i t := by
    intro i t
    have : (i : ℕ) < num := hlen ▸ i.isLt
    simp [hgt, List.getD_eq_getElem?_getD, this]
  change ldsPair σ.length nTest (rowScores data σ s) gt = _
  unfold ldsPair lds
  rw [if_neg]
  · simp only [Except.map]
    congr 1
    have hno : ∀ t, ¬ ∃ v ∈ gt.1, v t = none := by
      rintro t ⟨v, hv, h0⟩
      rw [hgt, List.mem_map] at hv
      obtain ⟨i, -, rfl⟩ := hv
      cases h0
    simp only [hno, if_false]
    have hid : ∀ l : List (Option ℝ), l.mapIdx (fun _ r => r) = l := by
      intro l
      induction l with
      | nil => rfl
      | cons a l ih => rw [List.mapIdx_cons, ih]
    rw [hid]
    refine List.map_congr_left fun t _ => ?_
    have hx : sumScores (rowScores data σ s) (fun i : Fin gt.2.length => gt.2.getD i []) t =
        fun i : Fin gt.2.length => ((sub i).map fun p => s (data (σ.getD p 0)) t).sum := by
      funext i
      simp only [sumScores, hsub]
      congr 1
      refine List.map_congr_left fun p hp => ?_
      have := (hchoice _).2 p hp
      rw [rowScores_eq data σ s p t this]
      simp [List.getD_eq_getElem?_getD, this]
    have hy : (fun i : Fin gt.2.length => ((gt.1.getD i fun _ => none) t).getD 0) = fun i : Fin gt.2.length => val i t := by
      funext i
      exact hv i t
    rw [hx, hy]
    exact spearman_cast hlen (fun i => ((sub i).map fun p => s (data (σ.getD p 0)) t).sum) fun i => val i t
  · rintro ⟨i, x, hx, hle⟩
    dsimp only at hx
    rw [hsub] at hx
    have := (hchoice _).2 x hx
    omega

/-- The exact score of a target that decreases by `s z t` for every sample `z` that the model is trained on. -/
def Additive {α : Type} (train : List X → α → M) (target : M → ℕ → ℝ) (C : ℕ → ℝ) (s : X → ℕ → ℝ) : Prop :=
  ∀ S a t, target (train S a) t = C t - (S.map fun z => s z t).sum

open Classical in
/-- **C226** (`lds`, no sampler or the first samples). If the loader yields the samples `0, …, n-1` in this order, exact scores get the value 1, or NaN for
test samples for which all subsets have the same sum. -/
theorem C226_lds_exact [DecidableEq ρ] (choice : ℕ → ℕ → ℕ → List ℕ) (train : List X → ℕ → M) (root : ρ) (data : ℕ → X) (σ : List ℕ)
    (hσ : σ = List.range σ.length) (k num runs seed : ℕ)
    (hk : k ≤ σ.length) (hnum : num ≠ 0) (hruns : runs ≠ 0) (hchoice : ∀ s, (choice s σ.length k).length = k ∧ ∀ x ∈ choice s σ.length k, x < σ.length)
    (target : M → ℕ → ℝ) (fs : FS ρ M) (nTest : ℕ) (C : ℕ → ℝ) (s : X → ℕ → ℝ) (hs : Additive train target C s) :
    ldsOfLoader choice train root data σ k num runs seed target fs nTest s = .ok ((List.range nTest).map fun t =>
      if ∀ i < num, ∀ j < num, ((choice (seed + i) σ.length k).map fun p => s (data p) t).sum =
        ((choice (seed + j) σ.length k).map fun p => s (data p) t).sum then none else some 1) := by
  rw [C226_lds choice train root data σ k num runs seed hk hnum hruns hchoice]
  congr 1
  refine List.map_congr_left fun t _ => ?_
  have hr : (runs : ℝ) ≠ 0 := by exact_mod_cast hruns
  set f : ℕ → ℝ := fun i => ((choice (seed + i) σ.length k).map fun p => s (data p) t).sum with hf
  have hx : (fun i : Fin num => ((choice (seed + i) σ.length k).map fun p => s (data (σ.getD p 0)) t).sum) = fun i : Fin num => f i := by
    funext i
    rw [hf]
    congr 1
    refine List.map_congr_left fun p hp => ?_
    have hp' := (hchoice _).2 p hp
    have : σ.getD p 0 = p := by
      have h2 : σ[p] = (List.range σ.length)[p]'(by simpa using hp') := by congr 1
      rw [List.getD_eq_getElem?_getD, List.getElem?_eq_getElem hp', Option.getD_some, h2, List.getElem_range]
    rw [this]
  have hy : (fun i : Fin num => -((∑ j ∈ range runs, target (train ((choice (seed + i) σ.length k).map data) (seed + i * runs + j)) t) / runs)) =
      fun i : Fin num => f i - C t := by
    funext i
    simp only [hs _ _ _, Finset.sum_const, Finset.card_range, nsmul_eq_mul, List.map_map, Function.comp_def, hf]
    field_simp
    ring
  rw [hx, hy]
  by_cases hc : ∀ i < num, ∀ j < num, f i = f j
  · rw [if_pos hc]
    by_contra hne
    obtain ⟨⟨i, j, hij⟩, -⟩ := (C41_defined_iff (fun i : Fin num => f i) fun i : Fin num => f i - C t).1 hne
    exact hij (hc _ i.isLt _ j.isLt)
  · rw [if_neg hc]
    push Not at hc
    obtain ⟨i, hi, j, hj, hij⟩ := hc
    exact (C41_perfect _ _ ⟨⟨i, hi⟩, ⟨j, hj⟩, hij⟩).1 fun a b => by simp

/-- **C226** (`lds`, every other sampler). For every other duplicate-free sampler of at least two samples over distinct data there are exact scores and subsets for
which `lds` gives -1. -/
theorem C226_lds_reversed (data : ℕ → X) (hd : Function.Injective data) (σ : List ℕ) (hn : σ.Nodup) (h2 : 2 ≤ σ.length)
    (hσ : σ ≠ List.range σ.length) :
    ∃ (choice : ℕ → ℕ → ℕ → List ℕ) (s : X → ℕ → ℝ), (∀ i, (choice i σ.length 1).length = 1 ∧ ∀ x ∈ choice i σ.length 1, x < σ.length) ∧
      ∀ (train : List X → ℕ → M) (target : M → ℕ → ℝ) (C : ℕ → ℝ), Additive train target C s → ∀ fs : FS Unit M,
        ldsOfLoader choice train () data σ 1 2 1 0 target fs 1 s = .ok [some (-1)] := by
  classical
  obtain ⟨a, ha, hne⟩ := moved_of_ne σ hσ
  obtain ⟨b, hb, hba⟩ : ∃ b, b < σ.length ∧ b ≠ a := by
    by_cases h : a = 0
    · exact ⟨1, by omega, by omega⟩
    · exact ⟨0, by omega, by omega⟩
  have hab : σ[b] ≠ σ[a] := fun h => hba ((List.Nodup.getElem_inj_iff hn).1 h)
  set s : X → ℕ → ℝ := fun z _ => if z = data σ[a] then 1 else if z = data a then -1 else 0 with hs
  have hchoice : ∀ i : ℕ, ((fun i _ _ => [if i = 0 then a else b] : ℕ → ℕ → ℕ → List ℕ) i σ.length 1).length = 1 ∧
      ∀ x ∈ (fun i _ _ => [if i = 0 then a else b] : ℕ → ℕ → ℕ → List ℕ) i σ.length 1, x < σ.length := by
    intro i
    refine ⟨rfl, fun x hx => ?_⟩
    rw [List.mem_singleton] at hx
    subst hx
    split_ifs <;> assumption
  refine ⟨fun i _ _ => [if i = 0 then a else b], s, hchoice, fun train target C hadd fs => ?_⟩
  rw [C226_lds _ train () data σ 1 2 1 0 (by omega) (by decide) (by decide) hchoice]
  simp only [List.range_one, List.map_cons, List.map_nil, Finset.range_one, Finset.sum_singleton, hadd _ _ _, List.sum_cons, List.sum_nil, add_zero,
    Nat.cast_one, div_one, zero_add]
  have h1 : s (data (σ.getD a 0)) 0 = 1 := by simp [hs, List.getD_eq_getElem?_getD, ha]
  have h2 : s (data (σ.getD b 0)) 0 < 1 := by
    have : data σ[b] ≠ data σ[a] := fun h => hab (hd h)
    simp only [hs, List.getD_eq_getElem?_getD, List.getElem?_eq_getElem hb, Option.getD_some, this, if_false]
    split_ifs <;> norm_num
  have h3 : s (data a) 0 = -1 := by
    have : data a ≠ data σ[a] := fun h => hne (hd h).symm
    simp [hs, this]
  have h4 : -1 < s (data b) 0 := by
    have : data b ≠ data a := fun h => hba (hd h)
    simp only [hs, this, if_false]
    split_ifs <;> norm_num
  congr 2
  have hx : ∀ i : Fin 2, s (data (σ.getD (if (i : ℕ) = 0 then a else b) 0)) 0 = if i = 0 then 1 else s (data (σ.getD b 0)) 0 := by
    intro i
    fin_cases i
    · simpa using h1
    · rfl
  have hy : ∀ i : Fin 2, s (data (if (i : ℕ) = 0 then a else b)) 0 = if i = 0 then -1 else s (data b) 0 := by
    intro i
    fin_cases i
    · simpa using h3
    · rfl
  simp only [hx, hy]
  generalize s (data (σ.getD b 0)) 0 = u at h2
  generalize s (data b) 0 = v at h4
  refine (C41_perfect _ _ ⟨0, 1, ?_⟩).2 fun i j => ?_
  · simpa using h2.ne'
  · fin_cases i <;> fin_cases j <;> simp <;> first | done | (constructor <;> intro h <;> linarith)

/-- **C226** (what `loo_corr` compares). Row `i` of the scores, of the sample at position `σ[i]`, with the model trained on the positions `0, …, n-1` except
`i`. -/
theorem C226_loo (train : List X → Option ℕ → M) (data : ℕ → X) (σ : List ℕ) (hn : 2 ≤ σ.length) (seed : Option ℕ) (target : M → ℕ → ℝ) (nTest : ℕ)
    (s : X → ℕ → ℝ) :
    looOfLoader train data σ seed target nTest s = .ok ((List.range nTest).map fun t => pearson (m := σ.length) (fun i => s (data (σ.getD i 0)) t)
      (fun i => target (train (((List.range σ.length).filter (· ≠ i.val)).map data) seed) t)) := by
  unfold looOfLoader evalLoo
  have hrel : ((((retrainLoo (onSubset data train) σ.length none seed).map fun d => (⟨d.1, true, some d.2⟩ : Entry M)).filter
      fun e => decide (Relevant e))).Perm ((retrainLoo (onSubset data train) σ.length none seed).map fun d => ⟨d.1, true, some d.2⟩) := by
    rw [List.filter_eq_self.2]
    intro e he
    rw [List.mem_map] at he
    obtain ⟨d, hd, rfl⟩ := he
    unfold retrainLoo at hd
    rw [List.mem_map] at hd
    obtain ⟨i, -, rfl⟩ := hd
    simp [Relevant]
  rw [C47_round_trip (onSubset data train) σ.length seed target _ hrel]
  simp only [bind, Except.bind, List.length_map, List.length_range]
  rw [C42_loo_corr_full σ.length nTest _ _ _ hn]
  congr 1
  refine List.map_congr_left fun t _ => ?_
  congr 1
  · funext i
    rw [rowScores_eq data σ s i t i.isLt]
    simp [List.getD_eq_getElem?_getD]
  · funext i
    simp [List.getD_eq_getElem?_getD, onSubset]

/-- Removing one position from `0, …, n-1` removes its score from the sum. -/
theorem sum_without (n i : ℕ) (hi : i < n) (f : ℕ → ℝ) :
    (((List.range n).filter (· ≠ i)).map f).sum = ((List.range n).map f).sum - f i := by
  have hp : (List.range n).Perm (i :: (List.range n).filter (· ≠ i)) := by
    rw [List.perm_ext_iff_of_nodup List.nodup_range (List.nodup_cons.2 ⟨by simp, List.nodup_range.filter _⟩)]
    intro x
    simp only [List.mem_range, List.mem_cons, List.mem_filter, decide_eq_true_eq]
    constructor
    · intro h
      by_cases hx : x = i
      · exact Or.inl hx
      · exact Or.inr ⟨h, by simpa using hx⟩
    · rintro (rfl | h)
      exacts [hi, h.1]
  rw [(hp.map f).sum_eq, List.map_cons, List.sum_cons]
  ring

/-- **C226** (`loo_corr` for exact scores). The correlation of the scores of the samples `σ[i]` with those of the samples `i`. -/
theorem C226_loo_additive (train : List X → Option ℕ → M) (data : ℕ → X) (σ : List ℕ) (hn : 2 ≤ σ.length) (seed : Option ℕ) (target : M → ℕ → ℝ)
    (nTest : ℕ) (C : ℕ → ℝ) (s : X → ℕ → ℝ) (hs : Additive train target C s) :
    looOfLoader train data σ seed target nTest s = .ok ((List.range nTest).map fun t =>
      pearson (m := σ.length) (fun i => s (data (σ.getD i 0)) t) (fun i => s (data i) t)) := by
  rw [C226_loo train data σ hn]
  congr 1
  refine List.map_congr_left fun t _ => ?_
  have : (fun i : Fin σ.length => target (train (((List.range σ.length).filter (· ≠ i.val)).map data) seed) t) =
      fun i : Fin σ.length => (C t - ((List.range σ.length).map fun p => s (data p) t).sum) + s (data i) t := by
    funext i
    rw [hs, List.map_map, Function.comp_def, sum_without σ.length i i.isLt fun p => s (data p) t]
    ring
  rw [this, pearson_shift (by omega)]

open Classical in
/-- **C226** (`loo_corr`, no sampler or the first samples). Exact scores get the value 1 (NaN if all are equal). -/
theorem C226_loo_exact (train : List X → Option ℕ → M) (data : ℕ → X) (σ : List ℕ) (hσ : σ = List.range σ.length) (hn : 2 ≤ σ.length) (seed : Option ℕ)
    (target : M → ℕ → ℝ) (nTest : ℕ) (C : ℕ → ℝ) (s : X → ℕ → ℝ) (hs : Additive train target C s) :
    looOfLoader train data σ seed target nTest s = .ok ((List.range nTest).map fun t =>
      if ∀ i < σ.length, ∀ j < σ.length, s (data i) t = s (data j) t then none else some 1) := by
  rw [C226_loo_additive train data σ hn seed target nTest C s hs]
  congr 1
  refine List.map_congr_left fun t _ => ?_
  have hx : (fun i : Fin σ.length => s (data (σ.getD i 0)) t) = fun i : Fin σ.length => s (data i) t := by
    funext i
    have h2 : σ[(i : ℕ)] = (List.range σ.length)[(i : ℕ)]'(by simp) := by congr 1
    have : σ.getD i 0 = i := by
      rw [List.getD_eq_getElem?_getD, List.getElem?_eq_getElem i.isLt, Option.getD_some, h2, List.getElem_range]
    rw [this]
  have h := pearson_affine (fun i : Fin σ.length => s (data i) t) 0 1 one_ne_zero
  simp only [zero_add, one_mul, zero_lt_one, if_true] at h
  rw [hx, h]
  have : (∀ i j : Fin σ.length, s (data i) t = s (data j) t) ↔ ∀ i < σ.length, ∀ j < σ.length, s (data i) t = s (data j) t :=
    ⟨fun h i hi j hj => h ⟨i, hi⟩ ⟨j, hj⟩, fun h i j => h i i.isLt j j.isLt⟩
  simp only [this]

/-- **C226** (`loo_corr`, every other sampler). For every other duplicate-free sampler of at least two samples over distinct data there are exact scores with a
negative correlation. -/
theorem C226_loo_reversed (data : ℕ → X) (hd : Function.Injective data) (σ : List ℕ) (hn : σ.Nodup) (h2 : 2 ≤ σ.length)
    (hσ : σ ≠ List.range σ.length) :
    ∃ (s : X → ℕ → ℝ) (r : ℝ), r < 0 ∧ ∀ (train : List X → Option ℕ → M) (target : M → ℕ → ℝ) (C : ℕ → ℝ), Additive train target C s →
      ∀ seed, looOfLoader train data σ seed target 1 s = .ok [some r] := by
  classical
  obtain ⟨a, ha, hne⟩ := moved_of_ne σ hσ
  set s : X → ℕ → ℝ := fun z _ => (if z = data σ[a] then 1 else 0) - (if z = data a then 1 else 0) with hs
  have hm : σ.length ≠ 0 := by omega
  have hmR : (2 : ℝ) ≤ σ.length := by exact_mod_cast h2
  have hg : ∀ i : Fin σ.length, σ.getD i 0 = σ[i] := fun i => by simp [List.getD_eq_getElem?_getD]
  set i0 : Fin σ.length := ⟨a, ha⟩ with hi0
  have hcross : cross (fun i : Fin σ.length => s (data (σ.getD i 0)) 0) (fun i : Fin σ.length => s (data i) 0) < 0 := by
    set x : Fin σ.length → ℝ := fun i => s (data (σ.getD i 0)) 0 with hx
    set y : Fin σ.length → ℝ := fun i => s (data i) 0 with hy
    set p : Fin σ.length → ℝ := fun i => if σ[i] = a then 1 else 0 with hp
    set q : Fin σ.length → ℝ := fun i => if (i : ℕ) = σ[a] then 1 else 0 with hq
    have ex : ∀ i, x i = (if i = i0 then 1 else 0) - p i := by
      intro i
      have h1 : (data (σ.getD i 0) = data σ[a]) ↔ i = i0 := by
        rw [hg, hd.eq_iff]
        exact ⟨fun h => Fin.ext ((List.Nodup.getElem_inj_iff hn).1 h), fun h => by rw [h]; rfl⟩
      have h2 : (data (σ.getD i 0) = data a) ↔ σ[i] = a := by rw [hg, hd.eq_iff]
      simp only [hx, hs, hp, h1, h2]
    have ey : ∀ i, y i = q i - (if i = i0 then 1 else 0) := by
      intro i
      have h1 : ((i : ℕ) = a) ↔ i = i0 := ⟨fun h => Fin.ext h, fun h => by rw [h]⟩
      simp only [hy, hs, hq, hd.eq_iff, h1]
    have hp0 : p i0 = 0 := by simp [hp, hi0, hne]
    have hq0 : q i0 = 0 := by simp [hq, hi0, Ne.symm hne]
    have hpn : ∀ i, 0 ≤ p i := fun i => by simp only [hp]; split_ifs <;> norm_num
    have hqn : ∀ i, 0 ≤ q i := fun i => by simp only [hq]; split_ifs <;> norm_num
    have hP1 : ∑ i, p i ≤ 1 := by
      simp only [hp, Finset.sum_boole]
      have : #{i : Fin σ.length | σ[i] = a} ≤ 1 := by
        rw [Finset.card_le_one]
        intro i hi j hj
        simp only [Finset.mem_filter, Finset.mem_univ, true_and] at hi hj
        exact Fin.ext ((List.Nodup.getElem_inj_iff hn).1 (hi.trans hj.symm))
      exact_mod_cast this
    have hQ1 : ∑ i, q i ≤ 1 := by
      simp only [hq, Finset.sum_boole]
      have : #{i : Fin σ.length | (i : ℕ) = σ[a]} ≤ 1 := by
        rw [Finset.card_le_one]
        intro i hi j hj
        simp only [Finset.mem_filter, Finset.mem_univ, true_and] at hi hj
        exact Fin.ext (hi.trans hj.symm)
      exact_mod_cast this
    have hP0 : 0 ≤ ∑ i, p i := Finset.sum_nonneg fun i _ => hpn i
    have hQ0 : 0 ≤ ∑ i, q i := Finset.sum_nonneg fun i _ => hqn i
    have hPQ : 0 ≤ ∑ i, p i * q i := Finset.sum_nonneg fun i _ => mul_nonneg (hpn i) (hqn i)
    have e1 : ∑ i, x i = 1 - ∑ i, p i := by
      simp only [ex, Finset.sum_sub_distrib, Finset.sum_ite_eq', Finset.mem_univ, if_true]
    have e2 : ∑ i, y i = ∑ i, q i - 1 := by
      simp only [ey, Finset.sum_sub_distrib, Finset.sum_ite_eq', Finset.mem_univ, if_true]
    have e3 : ∑ i, x i * y i = -1 - ∑ i, p i * q i := by
      have : ∀ i, x i * y i = (if i = i0 then (q i - 1 + p i) else 0) - p i * q i := by
        intro i
        rw [ex, ey]
        by_cases h : i = i0 <;> simp [h]
        ring
      simp only [this, Finset.sum_sub_distrib, Finset.sum_ite_eq', Finset.mem_univ, if_true, hp0, hq0]
      ring
    rw [cross_eq hm, e1, e2, e3]
    have hden : (0 : ℝ) < σ.length := by linarith
    have hb : -((1 - ∑ i, p i) * (∑ i, q i - 1) / σ.length) ≤ 1 / 2 := by
      rw [← neg_div, div_le_iff₀ hden]
      nlinarith
    linarith
  obtain ⟨r, hr, he⟩ := pearson_neg _ _ hcross
  refine ⟨s, r, hr, fun train target C hadd seed => ?_⟩
  rw [C226_loo_additive train data σ h2 seed target 1 C s hadd]
  simp only [List.range_one, List.map_cons, List.map_nil, he]

/-! ### Brittleness -/

/-- The intended test for `k`: the model trained on the samples of the rows that are not among the `k` highest-scored ones. -/
def flipsWithout (enum : Finset ℕ → List ℕ) (data : ℕ → X) (σ : List ℕ) (predict : List X → ℤ) (l : ℤ) (top : Finset ℕ) : Bool :=
  decide (predict ((enum ((Finset.range σ.length \ top).image fun r => σ.getD r 0)).map data) ≠ l)

theorem brittlenessOfLoader_eq (enum : Finset ℕ → List ℕ) (data : ℕ → X) (σ : List ℕ) (labels : List (List ℤ)) (l : ℤ) (hl : labels.getLast? = some [l])
    (predict : List X → ℤ) (order space : List ℕ) :
    brittlenessOfLoader enum data σ labels predict order space =
      .ok (space.find? fun k => decide (predict ((enum (σ.toFinset \ (order.reverse.take k).toFinset)).map data) ≠ l)) := by
  unfold brittlenessOfLoader Brittle.brittleness
  rw [Option.getD_some]
  refine Brittle.search_ok _ _ (fun k => ?_) space
  simp only [Brittle.testK, Brittle.checkIfFlip, hl, Bool.false_eq_true, if_false]

/-- **C226** (brittleness). With the scores of the same loader, `brittleness` removes the samples of the highest-scored rows, for all scores, predictions and search
spaces, iff the (duplicate-free) sampler is `0, …, n-1` in this order. -/
theorem C226_brittleness_iff (enum : Finset ℕ → List ℕ) (he : ∀ A, (enum A).toFinset = A) (data : ℕ → X) (hd : Function.Injective data) (σ : List ℕ)
    (hn : σ.Nodup) (labels : List (List ℤ)) (l : ℤ) (hl : labels.getLast? = some [l]) :
    (∀ (score : ℕ → ℚ) (order : List ℕ), Brittle.IsArgsort score σ.length order → ∀ (predict : List X → ℤ) (space : List ℕ),
      brittlenessOfLoader enum data σ labels predict order space =
        .ok (space.find? fun k => flipsWithout enum data σ predict l (order.reverse.take k).toFinset)) ↔ σ = List.range σ.length := by
  classical
  constructor
  · intro h
    by_contra hσ
    obtain ⟨a, ha, hne⟩ := moved_of_ne σ hσ
    set order : List ℕ := (List.range σ.length).erase a ++ [a] with ho
    have hperm : order.Perm (List.range σ.length) := by
      have h1 : (a :: (List.range σ.length).erase a).Perm (List.range σ.length) := (List.perm_cons_erase (List.mem_range.2 ha)).symm
      exact (List.perm_append_singleton a _).trans h1
    have hsort : Brittle.IsArgsort (fun r => if r = a then 1 else 0) σ.length order := by
      refine ⟨hperm, ?_⟩
      rw [ho, List.pairwise_append]
      refine ⟨?_, by simp, ?_⟩
      · refine List.Pairwise.imp_of_mem (R := fun _ _ => True) ?_ (List.pairwise_of_forall fun _ _ => trivial)
        intro x y hx _ _
        have : x ≠ a := (List.Nodup.mem_erase_iff List.nodup_range).1 hx |>.1
        simp only [this, if_false]
        split_ifs <;> norm_num
      · intro x _ y hy
        rw [List.mem_singleton] at hy
        subst hy
        simp only [if_true]
        split_ifs <;> norm_num
    have htop : (order.reverse.take 1).toFinset = {a} := by simp [ho]
    set A : Finset ℕ := σ.toFinset \ {a} with hA
    set B : Finset ℕ := (Finset.range σ.length \ {a}).image (fun r => σ.getD r 0) with hB
    set predict : List X → ℤ := fun S => if S = (enum A).map data then l + 1 else l with hpred
    have hk := h (fun r => if r = a then 1 else 0) order hsort predict [1]
    rw [brittlenessOfLoader_eq enum data σ labels l hl] at hk
    simp only [List.find?_cons, List.find?_nil, htop, flipsWithout] at hk
    rw [← hA, ← hB] at hk
    have hp1 : predict ((enum A).map data) = l + 1 := by simp [hpred]
    have hAB : A = B := by
      by_contra hAB
      have hp2 : predict ((enum B).map data) = l := by
        have : (enum B).map data ≠ (enum A).map data := by
          intro hm
          have := List.map_injective_iff.2 hd hm
          exact hAB (by rw [← he A, ← he B, this])
        simp [hpred, this]
      rw [hp1, hp2] at hk
      simp at hk
    have hin : σ[a] ∈ A := by
      rw [hA, Finset.mem_sdiff, Finset.mem_singleton, List.mem_toFinset]
      exact ⟨List.getElem_mem ha, hne⟩
    rw [hAB, hB, Finset.mem_image] at hin
    obtain ⟨r, hr, hra⟩ := hin
    rw [Finset.mem_sdiff, Finset.mem_range, Finset.mem_singleton] at hr
    rw [List.getD_eq_getElem?_getD, List.getElem?_eq_getElem hr.1, Option.getD_some] at hra
    exact hr.2 ((List.Nodup.getElem_inj_iff hn).1 hra)
  · intro hσ score order ho predict space
    rw [brittlenessOfLoader_eq enum data σ labels l hl]
    congr 2
    funext k
    unfold flipsWithout
    congr 5
    have h1 : ∀ r < σ.length, σ.getD r 0 = r := by
      intro r hr
      have h2 : σ[r] = (List.range σ.length)[r]'(by simpa using hr) := by congr 1
      rw [List.getD_eq_getElem?_getD, List.getElem?_eq_getElem hr, Option.getD_some, h2, List.getElem_range]
    have h3 : σ.toFinset = Finset.range σ.length := by
      ext x
      rw [List.mem_toFinset, Finset.mem_range]
      conv_lhs => rw [hσ]
      rw [List.mem_range]
    rw [h3]
    ext x
    simp only [Finset.mem_sdiff, Finset.mem_image, Finset.mem_range]
    constructor
    · rintro ⟨hx, hn⟩
      exact ⟨x, ⟨hx, hn⟩, h1 x hx⟩
    · rintro ⟨r, ⟨hr, hn⟩, rfl⟩
      rw [h1 r hr]
      exact ⟨hr, hn⟩

/-- **C226** (brittleness, other samples). If no sampled position is below the number of samples, nothing is ever removed: `brittleness` returns the first number of
the search space if the model trained on all samples predicts another label, and `None` otherwise. -/
theorem C226_brittleness_none (enum : Finset ℕ → List ℕ) (data : ℕ → X) (σ : List ℕ) (hσ : ∀ p ∈ σ, σ.length ≤ p) (labels : List (List ℤ)) (l : ℤ)
    (hl : labels.getLast? = some [l]) (score : ℕ → ℚ) (order : List ℕ) (ho : Brittle.IsArgsort score σ.length order) (predict : List X → ℤ)
    (space : List ℕ) :
    brittlenessOfLoader enum data σ labels predict order space =
      .ok (if predict ((enum σ.toFinset).map data) ≠ l then space.head? else none) := by
  rw [brittlenessOfLoader_eq enum data σ labels l hl]
  have h : ∀ k, σ.toFinset \ (order.reverse.take k).toFinset = σ.toFinset := by
    intro k
    rw [Finset.sdiff_eq_self_iff_disjoint, Finset.disjoint_left]
    intro p hp hq
    rw [List.mem_toFinset] at hp hq
    have h1 := hσ p hp
    have h2 := List.mem_of_mem_take hq
    rw [List.mem_reverse, ho.1.mem_iff, List.mem_range] at h2
    omega
  simp only [h]
  split_ifs with hc
  · cases space <;> simp [hc]
  · simp [hc]

/-- A loader over the positions 3 and 5: the hypotheses of the theorems on other samplers. -/
example : ([3, 5] : List ℕ).Nodup ∧ 2 ≤ [3, 5].length ∧ [3, 5] ≠ List.range [3, 5].length ∧ (∀ p ∈ [3, 5], [3, 5].length ≤ p) ∧
    Function.Injective (fun p : ℕ => (p, p + 1)) :=
  ⟨by decide, by decide, by decide, by decide, fun a b h => (Prod.mk.inj h).1⟩

/-- A training whose "model" is the list of samples, with a target that meets `Additive`. -/
example : Additive (fun (S : List ℕ) (_ : ℕ) => S) (fun S t => 10 - (S.map fun z => ((z + t : ℕ) : ℝ)).sum) (fun _ => 10) (fun z t => ((z + t : ℕ) : ℝ)) :=
  fun _ _ _ => rfl

/-- With the positions 1 and 0 (the same two samples in another order) the highest-scored row 0 belongs to the sample at position 1, but position 0 is removed. -/
example : brittlenessOfLoader (fun s => (List.range 4).filter (· ∈ s)) id [1, 0] [[0]] (fun S => if S = [1] then 7 else 0) [1, 0] [0, 1] = .ok (some 1) := by
  decide +kernel

end Verif.Metric
