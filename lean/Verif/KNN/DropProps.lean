import Verif.KNN.DropLemmas

/-!
# C165: KNN-Shapley with loaders that drop the last incomplete batch

`knnAttributeD` is the model; `shapley` and `knnUtility` (`Verif/KNN/Spec.lean`) are the specification.
-/

namespace Verif.KNN

open Equiv

variable {X L : Type}

/-- The distance between test sample `j` and training sample `i` that is actually used: zero if one of them was dropped. -/
def usedDist (dist : X → X → ℚ) (train test : DLoader X) (j i : ℕ) : ℚ :=
  match test.data[j]?, train.data[i]? with
  | some y, some x => if j < test.kept ∧ i < train.kept then dist y x else 0
  | _, _ => 0

/-- The label of training sample `i` that is actually used: the given one, or else the label of the sample number `i` modulo the number of
samples that were not dropped. -/
def usedTrainLabel (lab : X → L) (train : DLoader X) (o : Option (List L)) (i : ℕ) : Option L :=
  match o with
  | some l => l[i]?
  | none => (train.data[i % train.kept]?).map lab

/-- The label of test sample `j`: the given one, or else its own. -/
def usedTestLabel (lab : X → L) (test : DLoader X) (p : Option (List L)) (j : ℕ) : Option L :=
  match p with
  | some l => l[j]?
  | none => (test.data[j]?).map lab

variable [DecidableEq L]

/-- **C165.** With loaders that may drop their last incomplete batch (and at least one training and one test sample): `IndexError` is raised
exactly if no training labels are given and the yielded training batches, repeated once per test batch, do not cover the training set, or if
no test labels are given and a test sample is dropped. -/
theorem C165_errors (K : ℕ) (hK : 1 ≤ K) (dist : X → X → ℚ) (lab : X → L) (srt : (n : ℕ) → (Fin n → ℚ) → Perm (Fin n))
    (train test : DLoader X) (hTr : 0 < train.bs) (hTe : 0 < test.bs) (hN : 0 < train.data.length) (hM : 0 < test.data.length)
    (o p : Option (List L)) (ho : ∀ l, o = some l → l.length = train.data.length)
    (hp : ∀ l, p = some l → l.length = test.data.length) :
    (knnAttributeD K dist lab srt train test o p = .error .indexError ↔
      (o = none ∧ test.nb * train.kept < train.data.length) ∨ (p = none ∧ test.kept < test.data.length)) ∧
    ((∃ M, knnAttributeD K dist lab srt train test o p = .ok M) ∨ knnAttributeD K dist lab srt train test o p = .error .indexError) := by
  obtain ⟨st, hfit, htr, htel, -⟩ := fitD_spec dist lab train test hTr hTe o p ho hp
  have m1 : labelMismatch o train.data.length = false := by
    cases o with
    | none => rfl
    | some l => simp [labelMismatch, ho l rfl]
  have m2 : labelMismatch p test.data.length = false := by
    cases p with
    | none => rfl
    | some l => simp [labelMismatch, hp l rfl]
  have e2 : st.tel.length < test.data.length ↔ p = none ∧ test.kept < test.data.length := by
    rw [htel]
    cases p with
    | none => simp [test.kept_le]
    | some l => simp [hp l rfl]
  have e1 := trlAfter_length lab train o ho test.nb hN
  rw [← htr] at e1
  unfold knnAttributeD
  simp only [m1, m2, hfit, Bool.false_eq_true, if_false]
  rw [if_neg (by omega), if_neg (by omega)]
  by_cases h : st.trl.length < train.data.length ∨ st.tel.length < test.data.length
  · rw [if_pos h]
    exact ⟨⟨fun _ => by rwa [e1, e2] at h, fun _ => rfl⟩, Or.inr rfl⟩
  · rw [if_neg h, if_neg (by omega)]
    exact ⟨⟨fun hh => by simp at hh, fun hh => absurd (by rwa [e1, e2]) h⟩, Or.inl ⟨_, rfl⟩⟩

/-- **C165.** Otherwise the result has one row per sample of the test sampler and one column per sample of the train sampler, and for
`1 ≤ K ≤ N` it holds the Shapley values of a different game: one where dropped training samples are at distance 0 from every test point (and
all training samples are at distance 0 from a dropped test point) and, unless training labels were given, carry the label of the sample whose
number is theirs modulo the number of yielded samples. -/
theorem C165_values (K : ℕ) (dist : X → X → ℚ) (lab : X → L) (srt : (n : ℕ) → (Fin n → ℚ) → Perm (Fin n)) (hsrt : IsArgsort srt)
    (train test : DLoader X) (hTr : 0 < train.bs) (hTe : 0 < test.bs)
    (o p : Option (List L)) (ho : ∀ l, o = some l → l.length = train.data.length)
    (hp : ∀ l, p = some l → l.length = test.data.length) (hK : 1 ≤ K) (hKN : K ≤ train.data.length)
    (M : Mat ℚ) (hM : knnAttributeD K dist lab srt train test o p = .ok M) :
    M.r = test.data.length ∧ M.c = train.data.length ∧
    ∀ j < test.data.length, ∃ σ : Perm (Fin train.data.length),
      Monotone (fun k => usedDist dist train test j (σ k)) ∧
      ∀ i : Fin train.data.length, M.f j i =
        shapley (knnUtility K (fun a b => σ.symm a < σ.symm b)
          (fun a => decide (usedTrainLabel lab train o a = usedTestLabel lab test p j))) i := by
  obtain ⟨st, hfit, htr, htel, hf⟩ := fitD_spec dist lab train test hTr hTe o p ho hp
  have m1 : labelMismatch o train.data.length = false := by
    cases o with
    | none => rfl
    | some l => simp [labelMismatch, ho l rfl]
  have m2 : labelMismatch p test.data.length = false := by
    cases p with
    | none => rfl
    | some l => simp [labelMismatch, hp l rfl]
  unfold knnAttributeD at hM
  simp only [m1, m2, hfit, Bool.false_eq_true, if_false] at hM
  by_cases h0 : test.data.length = 0
  · rw [if_pos h0] at hM
    cases hM
    exact ⟨h0.symm, rfl, fun j hj => absurd hj (by omega)⟩
  rw [if_neg h0, if_neg (by omega)] at hM
  by_cases h : st.trl.length < train.data.length ∨ st.tel.length < test.data.length
  · rw [if_pos h] at hM; cases hM
  rw [if_neg h, if_neg (by omega)] at hM
  cases hM
  refine ⟨rfl, rfl, fun j hj => ?_⟩
  have h1 : ¬ st.trl.length < train.data.length := fun hh => h (Or.inl hh)
  have h2 : ¬ st.tel.length < test.data.length := fun hh => h (Or.inr hh)
  let row : Fin train.data.length → ℚ := fun a => usedDist dist train test j a
  have hrow : (fun a : Fin train.data.length => st.dist.f j a) = row := by
    funext a
    have ha := a.isLt
    rw [hf j hj a ha]
    simp only [row, usedDist, List.getElem?_eq_getElem hj, List.getElem?_eq_getElem ha]
  refine ⟨srt _ row, hsrt _ row, fun i => ?_⟩
  have hnn : ∀ k : Fin train.data.length, nnOf srt train.data.length (st.dist.f j) k = srt train.data.length row k := by
    intro k; rw [nnOf_val, hrow]
  show knnRow _ _ _ _ _ = _
  rw [knnRow_eq_shapley K hK (srt train.data.length row) _ hnn]
  have hK' : (K : ℚ) ≠ 0 := by positivity
  have hN' : (train.data.length : ℚ) ≠ 0 := by
    have : 0 < train.data.length := by omega
    positivity
  have z : (1 / (train.data.length : ℚ) - (min K train.data.length : ℕ) / ((K : ℚ) * (train.data.length : ℚ))) = 0 := by
    rw [Nat.min_eq_left hKN]
    field_simp
    ring
  rw [z, mul_zero, add_zero]
  congr 2
  funext a
  have ha := a.isLt
  have q1 : st.trl[(a : ℕ)]? = usedTrainLabel lab train o a := by
    rw [htr] at h1 ⊢
    cases o with
    | some l => rfl
    | none =>
      rw [trlAfter_length lab train none ho test.nb (by omega)] at h1
      exact trlAfter_get lab train test.nb a ha (by simpa using h1)
  have q2 : st.tel[j]? = usedTestLabel lab test p j := by
    rw [htel] at h2 ⊢
    cases p with
    | some l => rfl
    | none =>
      have : test.kept = test.data.length := by
        simp [test.kept_le] at h2
        have := test.kept_le
        omega
      simp [usedTestLabel, this]
  simp only [q1, q2]

/-- **C165** (label lists). Given labels whose number is not that of the samples of their loader (dropped ones included) are refused with
`ValueError`, which is raised in no other case in which there are samples. -/
theorem C165_mismatch (K : ℕ) (hK : 1 ≤ K) (dist : X → X → ℚ) (lab : X → L) (srt : (n : ℕ) → (Fin n → ℚ) → Perm (Fin n))
    (train test : DLoader X) (hTr : 0 < train.bs) (hTe : 0 < test.bs) (hN : 0 < train.data.length) (hM : 0 < test.data.length)
    (o p : Option (List L)) :
    knnAttributeD K dist lab srt train test o p = .error .valueError ↔
      (∃ l, o = some l ∧ l.length ≠ train.data.length) ∨ (∃ l, p = some l ∧ l.length ≠ test.data.length) := by
  constructor
  · intro h
    by_contra hn
    push Not at hn
    have := (C165_errors K hK dist lab srt train test hTr hTe hN hM o p hn.1 hn.2).2
    rw [h] at this
    rcases this with ⟨M, hM⟩ | hM <;> cases hM
  · rintro (⟨l, rfl, hl⟩ | ⟨l, rfl, hl⟩)
    · unfold knnAttributeD
      rw [if_pos (by simp [labelMismatch, hl])]
    · unfold knnAttributeD
      rw [if_pos (by simp [labelMismatch, hl] : labelMismatch (some l) test.data.length = true), ite_self]

/-- A concrete case: the third of three training samples is dropped (batch size 2), the two test samples come in two batches. -/
example : (∃ M, knnAttributeD 1 (fun a b : ℚ × ℕ => (a.1 - b.1) ^ 2) (fun a => a.2) (fun _ r => Tuple.sort r)
    ⟨[(1, 0), (2, 1), (9, 2)], 2, true⟩ ⟨[(1, 0), (9, 2)], 1, false⟩ none none = .ok M) ∧
    knnAttributeD 1 (fun a b : ℚ × ℕ => (a.1 - b.1) ^ 2) (fun a => a.2) (fun _ r => Tuple.sort r)
    ⟨[(1, 0), (2, 1), (9, 2)], 2, true⟩ ⟨[(1, 0), (9, 2)], 2, false⟩ none none = .error .indexError := by
  constructor
  · rcases (C165_errors 1 le_rfl (fun a b : ℚ × ℕ => (a.1 - b.1) ^ 2) (fun a => a.2) (fun _ r => Tuple.sort r)
      ⟨[(1, 0), (2, 1), (9, 2)], 2, true⟩ ⟨[(1, 0), (9, 2)], 1, false⟩ (by norm_num) (by norm_num) (by simp) (by simp)
      none none (by simp) (by simp)).2 with h | h
    · exact h
    · rw [(C165_errors 1 le_rfl _ _ _ ⟨[(1, 0), (2, 1), (9, 2)], 2, true⟩ ⟨[(1, 0), (9, 2)], 1, false⟩ (by norm_num) (by norm_num)
        (by simp) (by simp) none none (by simp) (by simp)).1] at h
      simp [DLoader.kept, DLoader.nb, numBatches] at h
  · rw [(C165_errors 1 le_rfl _ _ _ ⟨[(1, 0), (2, 1), (9, 2)], 2, true⟩ ⟨[(1, 0), (9, 2)], 2, false⟩ (by norm_num) (by norm_num)
        (by simp) (by simp) none none (by simp) (by simp)).1]
    simp [DLoader.kept, DLoader.nb, numBatches]

/-- There the dropped sample, which has the label 2, is used as if it were the nearest one and had the label 0. -/
example : usedDist (fun a b : ℚ × ℕ => (a.1 - b.1) ^ 2) ⟨[(1, 0), (2, 1), (9, 2)], 2, true⟩ ⟨[(1, 0), (9, 2)], 1, false⟩ 0 2 = 0 ∧
    usedTrainLabel (fun a : ℚ × ℕ => a.2) ⟨[(1, 0), (2, 1), (9, 2)], 2, true⟩ none 2 = some 0 := by
  simp [usedDist, usedTrainLabel, DLoader.kept]

end Verif.KNN
