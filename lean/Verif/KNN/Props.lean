import Verif.KNN.ModelLemmas
import Mathlib.Data.Fin.Tuple.Sort
import Mathlib.Tactic.FinCases

/-!
# Properties C01, C02, C03: KNN-Shapley

`knnAttribute` is the model of `KNNShapleyAttributor.attribute`; `shapley` and `knnUtility` are the specification.
-/

namespace Verif.KNN

open Finset Equiv

variable {X L : Type} [DecidableEq L]

/-- Documented meaning of `torch.argsort`: the permuted row is non-decreasing. -/
def IsArgsort (srt : (n : ℕ) → (Fin n → ℚ) → Perm (Fin n)) : Prop :=
  ∀ (n : ℕ) (row : Fin n → ℚ), Monotone (fun k => row (srt n row k))

/-- Specification: does training sample `i` carry the label of test sample `j`? Labels are the user-supplied ones if given, else
those of the samples. -/
def labelsMatch (lab : X → L) (train test : List X) (o p : Option (List L)) (j : ℕ) (i : ℕ) : Bool :=
  decide ((o.getD (train.map lab))[i]? = (p.getD (test.map lab))[j]?)

lemma knnAttribute_ok (K : ℕ) (dist : X → X → ℚ) (lab : X → L) (srt : (n : ℕ) → (Fin n → ℚ) → Perm (Fin n))
    (train test : List X) (bsTr bsTe : ℕ) (hTr : 0 < bsTr) (hTe : 0 < bsTe) (o p : Option (List L))
    (ho : ∀ l, o = some l → l.length = train.length) (hp : ∀ l, p = some l → l.length = test.length)
    (hK : 0 < K) (hn : 0 < train.length) :
    ∃ M, knnAttribute K dist lab srt train test bsTr bsTe o p = .ok M ∧ M.r = test.length ∧ M.c = train.length ∧
      ∀ j (hj : j < test.length), M.f j = knnRow train.length K
        (nnOf srt train.length (fun a => if h : a < train.length then dist test[j] train[a] else 0))
        (labelsMatch lab train test o p j) := by
  obtain ⟨st, hfit, htr, htel, hf⟩ := fit_spec dist lab train test bsTr bsTe hTr hTe o p ho hp
  have m1 : labelMismatch o train.length = false := by
    cases o with
    | none => rfl
    | some l => simp [labelMismatch, ho l rfl]
  have m2 : labelMismatch p test.length = false := by
    cases p with
    | none => rfl
    | some l => simp [labelMismatch, hp l rfl]
  have len1 : (finalLabels lab train o).length = train.length := by
    cases o with
    | none => simp [finalLabels]
    | some l => simpa [finalLabels] using ho l rfl
  have len2 : (finalLabels lab test p).length = test.length := by
    cases p with
    | none => simp [finalLabels]
    | some l => simpa [finalLabels] using hp l rfl
  unfold knnAttribute
  simp only [m1, m2, hfit, Bool.false_eq_true, if_false]
  by_cases h0 : test.length = 0
  · rw [if_pos h0]
    exact ⟨_, rfl, h0.symm, rfl, fun j hj => absurd hj (by omega)⟩
  · have htr' := htr (by omega)
    rw [if_neg h0, if_neg (by omega), if_neg (by rw [htr', htel, len1, len2]; omega), if_neg (by omega)]
    refine ⟨_, rfl, rfl, rfl, ?_⟩
    intro j hj
    simp only
    have e1 : nnOf srt train.length (st.dist.f j) =
        nnOf srt train.length (fun a => if h : a < train.length then dist test[j] train[a] else 0) := by
      funext k
      unfold nnOf
      have : (fun a : Fin train.length => st.dist.f j a) =
          (fun a : Fin train.length => if h : (a : ℕ) < train.length then dist test[j] train[(a : ℕ)] else 0) := by
        funext a
        rw [hf j hj a a.isLt, dif_pos a.isLt]
      rw [this]
    rw [e1]
    congr 1
    funext a
    rw [htr', htel]
    rfl

lemma nnOf_val (srt : (n : ℕ) → (Fin n → ℚ) → Perm (Fin n)) (n : ℕ) (row : ℕ → ℚ) (k : Fin n) :
    nnOf srt n row k = srt n (fun a => row a) k := by
  simp [nnOf]

lemma main (K : ℕ) (dist : X → X → ℚ) (lab : X → L) (srt : (n : ℕ) → (Fin n → ℚ) → Perm (Fin n)) (hsrt : IsArgsort srt)
    (train test : List X) (bsTr bsTe : ℕ) (hTr : 0 < bsTr) (hTe : 0 < bsTe) (o p : Option (List L))
    (ho : ∀ l, o = some l → l.length = train.length) (hp : ∀ l, p = some l → l.length = test.length)
    (hK : 0 < K) (hn : 0 < train.length) :
    ∃ M, knnAttribute K dist lab srt train test bsTr bsTe o p = .ok M ∧ M.r = test.length ∧ M.c = train.length ∧
      ∀ j (hj : j < test.length), ∃ σ : Perm (Fin train.length),
        Monotone (fun k => dist test[j] train[σ k]) ∧
        ∀ i : Fin train.length, M.f j i =
          shapley (knnUtility K (fun a b => σ.symm a < σ.symm b) (fun a => labelsMatch lab train test o p j a)) i
          + ind (labelsMatch lab train test o p j (σ ⟨train.length - 1, by omega⟩))
            * (1 / (train.length : ℚ) - (min K train.length : ℕ) / ((K : ℚ) * (train.length : ℚ))) := by
  obtain ⟨M, h1, hr, hc, hf⟩ := knnAttribute_ok K dist lab srt train test bsTr bsTe hTr hTe o p ho hp hK hn
  refine ⟨M, h1, hr, hc, fun j hj => ?_⟩
  let row : Fin train.length → ℚ := fun a => dist test[j] train[a]
  refine ⟨srt train.length row, hsrt _ row, fun i => ?_⟩
  have hrow : (fun a : Fin train.length => if h : (a : ℕ) < train.length then dist test[j] train[(a : ℕ)] else 0) = row := by
    funext a; rw [dif_pos a.isLt]; rfl
  have hnn : ∀ k : Fin train.length,
      nnOf srt train.length (fun a => if h : a < train.length then dist test[j] train[a] else 0) k = srt train.length row k := by
    intro k; rw [nnOf_val, hrow]
  rw [hf j hj, knnRow_eq_shapley K hK (srt train.length row) _ hnn]
  have := hnn ⟨train.length - 1, by omega⟩
  simp only at this
  rw [this]

/-- **C01.** For `1 ≤ K ≤ N`, every entry returned by `KNNShapleyAttributor.attribute` is the exact Shapley value of the KNN
game of that test point (ties in distance broken by some order compatible with the distances). The result does not mention
the batch sizes. -/
theorem C01_knn_shapley_exact (K : ℕ) (dist : X → X → ℚ) (lab : X → L)
    (srt : (n : ℕ) → (Fin n → ℚ) → Perm (Fin n)) (hsrt : IsArgsort srt)
    (train test : List X) (bsTr bsTe : ℕ) (hTr : 0 < bsTr) (hTe : 0 < bsTe) (o p : Option (List L))
    (ho : ∀ l, o = some l → l.length = train.length) (hp : ∀ l, p = some l → l.length = test.length)
    (hK : 1 ≤ K) (hKN : K ≤ train.length) :
    ∃ M, knnAttribute K dist lab srt train test bsTr bsTe o p = .ok M ∧ M.r = test.length ∧ M.c = train.length ∧
      ∀ j (hj : j < test.length), ∃ σ : Perm (Fin train.length),
        Monotone (fun k => dist test[j] train[σ k]) ∧
        ∀ i : Fin train.length, M.f j i =
          shapley (knnUtility K (fun a b => σ.symm a < σ.symm b) (fun a => labelsMatch lab train test o p j a)) i := by
  obtain ⟨M, h1, hr, hc, hf⟩ := main K dist lab srt hsrt train test bsTr bsTe hTr hTe o p ho hp hK (by omega)
  refine ⟨M, h1, hr, hc, fun j hj => ?_⟩
  obtain ⟨σ, hσ, h⟩ := hf j hj
  refine ⟨σ, hσ, fun i => ?_⟩
  rw [h i]
  have hK' : (K : ℚ) ≠ 0 := by positivity
  have hN' : (train.length : ℚ) ≠ 0 := by
    have : 0 < train.length := by omega
    positivity
  have : (1 / (train.length : ℚ) - (min K train.length : ℕ) / ((K : ℚ) * (train.length : ℚ))) = 0 := by
    rw [Nat.min_eq_left hKN]
    field_simp
    ring
  rw [this, mul_zero, add_zero]

/-- **C01**, distinct distances: no tie-breaking order is needed, "closer" means smaller distance. -/
theorem C01_knn_shapley_exact_distinct (K : ℕ) (dist : X → X → ℚ) (lab : X → L)
    (srt : (n : ℕ) → (Fin n → ℚ) → Perm (Fin n)) (hsrt : IsArgsort srt)
    (train test : List X) (bsTr bsTe : ℕ) (hTr : 0 < bsTr) (hTe : 0 < bsTe) (o p : Option (List L))
    (ho : ∀ l, o = some l → l.length = train.length) (hp : ∀ l, p = some l → l.length = test.length)
    (hK : 1 ≤ K) (hKN : K ≤ train.length)
    (hinj : ∀ x ∈ test, Function.Injective (fun a : Fin train.length => dist x train[a])) :
    ∃ M, knnAttribute K dist lab srt train test bsTr bsTe o p = .ok M ∧ M.r = test.length ∧ M.c = train.length ∧
      ∀ j (hj : j < test.length) (i : Fin train.length), M.f j i =
          shapley (knnUtility K (fun a b => dist test[j] train[a] < dist test[j] train[b])
            (fun a => labelsMatch lab train test o p j a)) i := by
  obtain ⟨M, h1, hr, hc, hf⟩ := C01_knn_shapley_exact K dist lab srt hsrt train test bsTr bsTe hTr hTe o p ho hp hK hKN
  refine ⟨M, h1, hr, hc, fun j hj i => ?_⟩
  obtain ⟨σ, hσ, h⟩ := hf j hj
  rw [h i]
  congr 1
  have hinj' := hinj test[j] (List.getElem_mem hj)
  have hs : StrictMono (fun k => dist test[j] train[σ k]) := by
    apply hσ.strictMono_of_injective
    intro a b hab
    exact σ.injective (hinj' hab)
  funext S
  unfold knnUtility
  have hiff : ∀ a b : Fin train.length, (σ.symm a < σ.symm b) ↔ (dist test[j] train[a] < dist test[j] train[b]) := by
    intro a b
    rw [← hs.lt_iff_lt]
    simp
  simp only [hiff]

/-- **C02.** For `K > N` the returned scores equal the true Shapley value `1[match]/K` shifted by the same constant for every
training point; the shift is zero iff the farthest training point does not match. -/
theorem C02_knn_shapley_large_K (K : ℕ) (dist : X → X → ℚ) (lab : X → L)
    (srt : (n : ℕ) → (Fin n → ℚ) → Perm (Fin n)) (hsrt : IsArgsort srt)
    (train test : List X) (bsTr bsTe : ℕ) (hTr : 0 < bsTr) (hTe : 0 < bsTe) (o p : Option (List L))
    (ho : ∀ l, o = some l → l.length = train.length) (hp : ∀ l, p = some l → l.length = test.length)
    (hN : 0 < train.length) (hKN : train.length < K) :
    ∃ M, knnAttribute K dist lab srt train test bsTr bsTe o p = .ok M ∧
      ∀ j (hj : j < test.length), ∃ σ : Perm (Fin train.length),
        Monotone (fun k => dist test[j] train[σ k]) ∧
        let v := knnUtility K (fun a b => σ.symm a < σ.symm b) (fun a => labelsMatch lab train test o p j a)
        let farthest := σ ⟨train.length - 1, by omega⟩
        (∀ i : Fin train.length, shapley v i = (if labelsMatch lab train test o p j i then 1 else 0) / (K : ℚ)) ∧
        (∀ i : Fin train.length, M.f j i = shapley v i
          + (if labelsMatch lab train test o p j farthest then 1 else 0) * (1 / (train.length : ℚ) - 1 / K)) ∧
        ((∀ i : Fin train.length, M.f j i = shapley v i) ↔ labelsMatch lab train test o p j farthest = false) := by
  obtain ⟨M, h1, hr, hc, hf⟩ := main K dist lab srt hsrt train test bsTr bsTe hTr hTe o p ho hp (by omega) hN
  refine ⟨M, h1, fun j hj => ?_⟩
  obtain ⟨σ, hσ, h⟩ := hf j hj
  refine ⟨σ, hσ, ?_⟩
  simp only
  have hK' : (K : ℚ) ≠ 0 := by
    have : 0 < K := by omega
    positivity
  have hN' : (train.length : ℚ) ≠ 0 := by positivity
  have e : (1 / (train.length : ℚ) - (min K train.length : ℕ) / ((K : ℚ) * (train.length : ℚ)))
      = 1 / (train.length : ℚ) - 1 / K := by
    rw [Nat.min_eq_right hKN.le]
    field_simp
  have hsh : ∀ i : Fin train.length, shapley (knnUtility K (fun a b => σ.symm a < σ.symm b)
      (fun a => labelsMatch lab train test o p j a)) i = (if labelsMatch lab train test o p j i then 1 else 0) / (K : ℚ) := by
    intro i
    have hs := shapley_rank K σ (fun a => labelsMatch lab train test o p j a) (σ.symm i)
    rw [Equiv.apply_symm_apply] at hs
    rw [hs, Finset.sum_eq_single (σ.symm i)]
    · rw [Equiv.apply_symm_apply]
      unfold coef ind
      rw [if_neg (lt_irrefl _), if_pos rfl, Nat.min_eq_right (by have := (σ.symm i).isLt; omega)]
      have : ((σ.symm i : ℕ) : ℚ) + 1 ≠ 0 := by positivity
      push_cast
      rw [div_self this, mul_one]
    · intro k _ hne
      have hk := k.isLt
      unfold coef
      split
      · simp
      · rw [if_neg (by intro e; exact hne (Fin.ext e)), if_pos (by omega), Nat.min_eq_right (by omega)]
        have : ((k : ℕ) : ℚ) + 1 ≠ 0 := by positivity
        push_cast
        rw [div_self this]
        simp
    · simp
  refine ⟨hsh, fun i => ?_, ?_⟩
  · rw [h i, e]; rfl
  · have hne : (1 / (train.length : ℚ) - 1 / K) ≠ 0 := by
      rw [sub_ne_zero]
      intro hh
      rw [one_div, one_div, inv_inj] at hh
      have : train.length = K := by exact_mod_cast hh
      omega
    constructor
    · intro hall
      have h0 := hall ⟨0, hN⟩
      rw [h, e] at h0
      have h2 := add_eq_left.1 h0
      rcases mul_eq_zero.1 h2 with h3 | h3
      · cases hm : labelsMatch lab train test o p j (σ ⟨train.length - 1, by omega⟩) with
        | false => rfl
        | true => rw [hm] at h3; simp [ind] at h3
      · exact absurd h3 hne
    · intro hm i
      rw [h i, hm]
      simp [ind]

/-- **C03**, efficiency: for `1 ≤ K ≤ N` the scores of a test point add up to the KNN utility of the whole training set. -/
theorem C03_knn_efficiency (K : ℕ) (dist : X → X → ℚ) (lab : X → L)
    (srt : (n : ℕ) → (Fin n → ℚ) → Perm (Fin n)) (hsrt : IsArgsort srt)
    (train test : List X) (bsTr bsTe : ℕ) (hTr : 0 < bsTr) (hTe : 0 < bsTe) (o p : Option (List L))
    (ho : ∀ l, o = some l → l.length = train.length) (hp : ∀ l, p = some l → l.length = test.length)
    (hK : 1 ≤ K) (hKN : K ≤ train.length) :
    ∃ M, knnAttribute K dist lab srt train test bsTr bsTe o p = .ok M ∧
      ∀ j (hj : j < test.length), ∃ σ : Perm (Fin train.length),
        Monotone (fun k => dist test[j] train[σ k]) ∧
        ∑ i : Fin train.length, M.f j i =
          ((univ.filter (fun r : Fin train.length => (r : ℕ) < K ∧ labelsMatch lab train test o p j (σ r) = true)).card : ℚ) / K := by
  obtain ⟨M, h1, hr, hc, hf⟩ := C01_knn_shapley_exact K dist lab srt hsrt train test bsTr bsTe hTr hTe o p ho hp hK hKN
  refine ⟨M, h1, fun j hj => ?_⟩
  obtain ⟨σ, hσ, h⟩ := hf j hj
  refine ⟨σ, hσ, ?_⟩
  simp only [h]
  rw [shapley_efficiency]
  have hcard : ∀ a : Fin train.length, (univ.filter (fun j => σ.symm j < σ.symm a)).card = (σ.symm a : ℕ) := by
    intro a
    rw [← Fin.card_Iio (σ.symm a)]
    apply Finset.card_bij (fun j _ => σ.symm j)
    · intro j hj; simpa using hj
    · intro x _ y _ h; exact σ.symm.injective h
    · intro y hy; exact ⟨σ y, by simpa using hy, by simp⟩
  unfold knnUtility
  simp only [hcard, Finset.filter_empty, Finset.card_empty, Nat.cast_zero, zero_div, sub_zero]
  congr 2
  apply Finset.card_bij (fun a _ => σ.symm a)
  · intro a ha
    simp only [mem_filter, mem_univ, true_and] at ha ⊢
    exact ⟨ha.2, by simpa using ha.1⟩
  · intro x _ y _ h; exact σ.symm.injective h
  · intro r hr
    simp only [mem_filter, mem_univ, true_and] at hr
    exact ⟨σ r, by simpa using ⟨hr.2, hr.1⟩, by simp⟩

/-- **C03**, batching: two runs on the same data that differ only in the two batch sizes return the same matrix. -/
theorem C03_knn_batch_independent (K : ℕ) (dist : X → X → ℚ) (lab : X → L)
    (srt : (n : ℕ) → (Fin n → ℚ) → Perm (Fin n))
    (train test : List X) (bsTr bsTe bsTr' bsTe' : ℕ) (hTr : 0 < bsTr) (hTe : 0 < bsTe) (hTr' : 0 < bsTr') (hTe' : 0 < bsTe')
    (o p : Option (List L))
    (ho : ∀ l, o = some l → l.length = train.length) (hp : ∀ l, p = some l → l.length = test.length)
    (hK : 1 ≤ K) (hN : 0 < train.length) :
    ∃ M M', knnAttribute K dist lab srt train test bsTr bsTe o p = .ok M ∧
      knnAttribute K dist lab srt train test bsTr' bsTe' o p = .ok M' ∧
      M.r = test.length ∧ M'.r = test.length ∧ M.c = train.length ∧ M'.c = train.length ∧
      ∀ j < test.length, ∀ i < train.length, M.f j i = M'.f j i := by
  obtain ⟨M, h1, hr, hc, hf⟩ := knnAttribute_ok K dist lab srt train test bsTr bsTe hTr hTe o p ho hp hK hN
  obtain ⟨M', h1', hr', hc', hf'⟩ := knnAttribute_ok K dist lab srt train test bsTr' bsTe' hTr' hTe' o p ho hp hK hN
  exact ⟨M, M', h1, h1', hr, hr', hc, hc', fun j hj i _ => by rw [hf j hj, hf' j hj]⟩

/-- **C03**, errors: mismatching label lists are rejected with `ValueError`, and `ValueError` is raised only for them. -/
theorem C03_knn_label_mismatch (K : ℕ) (dist : X → X → ℚ) (lab : X → L)
    (srt : (n : ℕ) → (Fin n → ℚ) → Perm (Fin n)) (train test : List X) (bsTr bsTe : ℕ) (o p : Option (List L)) :
    knnAttribute K dist lab srt train test bsTr bsTe o p = .error .valueError ↔
      (∃ l, o = some l ∧ l.length ≠ train.length) ∨ (∃ l, p = some l ∧ l.length ≠ test.length) := by
  have e1 : labelMismatch o train.length = true ↔ ∃ l, o = some l ∧ l.length ≠ train.length := by
    cases o <;> simp [labelMismatch]
  have e2 : labelMismatch p test.length = true ↔ ∃ l, p = some l ∧ l.length ≠ test.length := by
    cases p <;> simp [labelMismatch]
  rw [← e1, ← e2]
  unfold knnAttribute
  by_cases h1 : labelMismatch o train.length = true
  · simp [h1]
  · by_cases h2 : labelMismatch p test.length = true
    · simp [h1, h2]
    · simp only [Bool.not_eq_true] at h1 h2
      simp only [h1, h2, Bool.false_eq_true, if_false, or_self, iff_false]
      split
      · simp
      · repeat' split
        all_goals simp

/-! ### Non-vacuity -/

/-- An argsort meeting the hypothesis exists. -/
example : IsArgsort (fun _ row => Tuple.sort row) := fun _ row => Tuple.monotone_sort row

/-- Three training points on a line, `K = 2`: hypotheses of C01 are met, and the value of the nearest point is computed. -/
example : (1 ≤ 2 ∧ 2 ≤ ([(0, true), (1, false), (3, true)] : List (ℚ × Bool)).length) ∧
    Function.Injective (fun a : Fin 3 => |([(0, true), (1, false), (3, true)] : List (ℚ × Bool))[a].1 - 0|) := by
  refine ⟨by decide, ?_⟩
  intro a b h
  fin_cases a <;> fin_cases b <;> first | rfl | (norm_num at h)

example : knnRow 3 2 (fun k => k) (fun i => i != 1) 0 = 1 / 3 ∧ knnRow 3 2 (fun k => k) (fun i => i != 1) 1 = -1 / 6
    ∧ knnRow 3 2 (fun k => k) (fun i => i != 1) 2 = 1 / 3 := by
  refine ⟨?_, ?_, ?_⟩ <;> norm_num [knnRow, stepRow, ind, List.range, List.range.loop, Function.update]

/-- `K = 5 > N = 1`, matching point: the code returns `1`, the Shapley value is `1/5` (C02 is not vacuous). -/
example : knnRow 1 5 (fun k => k) (fun _ => true) 0 = 1 := by
  norm_num [knnRow, ind, Function.update]

end Verif.KNN
