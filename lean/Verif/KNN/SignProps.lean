import Verif.KNN.Props
import Mathlib.Tactic.Linarith
import Mathlib.Tactic.Positivity

/-!
# C172: signs, bounds and order of KNN-Shapley values
-/

namespace Verif.KNN

open Finset Equiv

variable {X L : Type} [DecidableEq L]

/-! ### Helper lemmas -/

/-- The weight of the step at rank `i`. -/
def wt (K i : ℕ) : ℚ := (min K (i + 1) : ℕ) / ((K : ℚ) * (i + 1 : ℕ))

lemma wt_le (K i : ℕ) (hK : 0 < K) : wt K i ≤ 1 / K := by
  unfold wt
  have hK' : (0 : ℚ) < K := by exact_mod_cast hK
  have hi : (0 : ℚ) < (i + 1 : ℕ) := by positivity
  rw [div_le_div_iff₀ (by positivity) hK', one_mul, mul_comm]
  apply mul_le_mul_of_nonneg_left _ hK'.le
  exact_mod_cast min_le_right _ _

lemma wt_anti (K i : ℕ) (hK : 0 < K) : wt K (i + 1) ≤ wt K i := by
  unfold wt
  have hK' : (0 : ℚ) < K := by exact_mod_cast hK
  have hi : (0 : ℚ) < (i + 1 : ℕ) := by positivity
  have hi' : (0 : ℚ) < (i + 1 + 1 : ℕ) := by positivity
  rw [div_le_div_iff₀ (by positivity) (by positivity)]
  have key : min K (i + 1 + 1) * (i + 1) ≤ min K (i + 1) * (i + 1 + 1) := by
    rcases Nat.lt_or_ge K (i + 2) with h | h
    · rw [min_eq_left (by omega), min_eq_left (by omega)]
      exact Nat.mul_le_mul_left _ (by omega)
    · rw [min_eq_right (by omega), min_eq_right (by omega), mul_comm]
  have key' : ((min K (i + 1 + 1) : ℕ) : ℚ) * (i + 1 : ℕ) ≤ (min K (i + 1) : ℕ) * (i + 1 + 1 : ℕ) := by exact_mod_cast key
  nlinarith [mul_le_mul_of_nonneg_left key' hK'.le]

lemma wt_pos (K i : ℕ) (hK : 0 < K) : 0 < wt K i := by
  unfold wt
  have hK' : (0 : ℚ) < K := by exact_mod_cast hK
  have : 0 < min K (i + 1) := by omega
  positivity

lemma wt_last (K N : ℕ) (hK : 0 < K) (hN : K ≤ N) : wt K (N - 1) = 1 / N := by
  unfold wt
  have hK' : (0 : ℚ) < K := by exact_mod_cast hK
  have hN' : (0 : ℚ) < N := by exact_mod_cast (show 0 < N by omega)
  rw [show N - 1 + 1 = N by omega, min_eq_left hN]
  field_simp

lemma step_wt (N K : ℕ) (mm : ℕ → Bool) (i : ℕ) (hi : i + 1 < N) :
    gVal N K mm i = gVal N K mm (i + 1) + (ind (mm i) - ind (mm (i + 1))) * wt K i := by
  rw [gVal_step N K mm i hi]
  unfold wt
  congr 1
  rw [div_mul_eq_mul_div, div_div, mul_div_assoc]

lemma bounds (N K : ℕ) (hK : 0 < K) (hN : K ≤ N) (mm : ℕ → Bool) (k : ℕ) : ∀ i, i + k = N - 1 →
    (mm i = true → 1 / (N : ℚ) ≤ gVal N K mm i ∧ gVal N K mm i ≤ wt K i) ∧
      (mm i = false → 1 / (N : ℚ) - wt K i ≤ gVal N K mm i ∧ gVal N K mm i ≤ 0) := by
  induction k with
  | zero =>
    intro i hi
    obtain rfl : i = N - 1 := by omega
    rw [gVal_last N K (by omega) hK, wt_last K N hK hN]
    exact ⟨fun h => by simp [h, ind], fun h => by simp [h, ind]⟩
  | succ k ih =>
    intro i hi
    have h := ih (i + 1) (by omega)
    have hw := wt_anti K i hK
    rw [step_wt N K mm i (by omega)]
    cases h1 : mm i <;> cases h2 : mm (i + 1) <;> simp only [h2, reduceCtorEq, false_implies, forall_const, true_and, and_true] at h <;>
      simp only [reduceCtorEq, false_implies, forall_const, true_and, and_true, ind, if_true, if_false, Bool.false_eq_true] <;>
      constructor <;> linarith [h.1, h.2]

lemma order_match (N K : ℕ) (hK : 0 < K) (mm : ℕ → Bool) (j : ℕ) (hj : j < N) (k : ℕ) : ∀ i, i + k = j →
    (mm j = true → (mm i = true → gVal N K mm j ≤ gVal N K mm i) ∧ (mm i = false → gVal N K mm j - wt K i ≤ gVal N K mm i)) ∧
      (mm j = false → (mm i = false → gVal N K mm i ≤ gVal N K mm j) ∧ (mm i = true → gVal N K mm i ≤ gVal N K mm j + wt K i)) := by
  induction k with
  | zero =>
    intro i hi
    obtain rfl : i = j := by omega
    have := wt_pos K i hK
    exact ⟨fun h => ⟨fun _ => le_refl _, fun _ => by linarith⟩, fun h => ⟨fun _ => le_refl _, fun _ => by linarith⟩⟩
  | succ k ih =>
    intro i hi
    have h := ih (i + 1) (by omega)
    have hw := wt_anti K i hK
    rw [step_wt N K mm i (by omega)]
    refine ⟨fun hm => ?_, fun hm => ?_⟩
    · have h := h.1 hm
      cases h1 : mm i <;> cases h2 : mm (i + 1) <;> simp only [h2, reduceCtorEq, false_implies, forall_const, true_and, and_true] at h <;>
        simp only [reduceCtorEq, false_implies, forall_const, true_and, and_true, ind, if_true, if_false, Bool.false_eq_true] <;>
        linarith
    · have h := h.2 hm
      cases h1 : mm i <;> cases h2 : mm (i + 1) <;> simp only [h2, reduceCtorEq, false_implies, forall_const, true_and, and_true] at h <;>
        simp only [reduceCtorEq, false_implies, forall_const, true_and, and_true, ind, if_true, if_false, Bool.false_eq_true] <;>
        linarith

/-- The row of a test point in terms of ranks. -/
lemma row_ranks (K : ℕ) (dist : X → X → ℚ) (lab : X → L) (srt : (n : ℕ) → (Fin n → ℚ) → Perm (Fin n)) (hsrt : IsArgsort srt)
    (train test : List X) (bsTr bsTe : ℕ) (hTr : 0 < bsTr) (hTe : 0 < bsTe) (o p : Option (List L))
    (ho : ∀ l, o = some l → l.length = train.length) (hp : ∀ l, p = some l → l.length = test.length) (hK : 0 < K) (hn : 0 < train.length) :
    ∃ M, knnAttribute K dist lab srt train test bsTr bsTe o p = .ok M ∧ ∀ j (hj : j < test.length),
      ∃ (σ : Perm (Fin train.length)) (mm : ℕ → Bool), Monotone (fun k => dist test[j] train[σ k]) ∧
        (∀ r : Fin train.length, mm r = labelsMatch lab train test o p j (σ r)) ∧
        ∀ r : Fin train.length, M.f j (σ r) = gVal train.length K mm r := by
  obtain ⟨M, h1, -, -, hf⟩ := knnAttribute_ok K dist lab srt train test bsTr bsTe hTr hTe o p ho hp hK hn
  refine ⟨M, h1, fun j hj => ?_⟩
  let row : Fin train.length → ℚ := fun a => dist test[j] train[a]
  have hrow : (fun a : Fin train.length => if h : (a : ℕ) < train.length then dist test[j] train[(a : ℕ)] else 0) = row := by
    funext a; rw [dif_pos a.isLt]; rfl
  let nn := nnOf srt train.length (fun a => if h : a < train.length then dist test[j] train[a] else 0)
  have hnn : ∀ k : Fin train.length, nn k = srt train.length row k := by
    intro k; show nnOf _ _ _ _ = _; rw [nnOf_val, hrow]
  have hinj : ∀ a < train.length, ∀ b < train.length, nn a = nn b → a = b := by
    intro a ha b hb h
    have e1 := hnn ⟨a, ha⟩
    have e2 := hnn ⟨b, hb⟩
    simp only at e1 e2
    rw [e1, e2] at h
    simpa using (srt train.length row).injective (Fin.ext h)
  refine ⟨srt train.length row, fun k => labelsMatch lab train test o p j (nn k), hsrt _ row, fun r => by dsimp only; rw [hnn], fun r => ?_⟩
  rw [hf j hj, ← hnn r]
  exact knnRow_eq train.length K hn nn _ hinj (gVal train.length K fun k => labelsMatch lab train test o p j (nn k))
    (gVal_last _ K hn hK _) (fun i hi => gVal_step _ K _ i hi) r r.2

/-! ### Properties -/

/-- **C172** (sign and size). For `1 ≤ K ≤ N` a training sample's value is positive exactly if it carries the label of the test sample. Then it lies between `1/N` and `1/K`;
otherwise between `1/N - 1/K` and `0`. -/
theorem C172_sign (K : ℕ) (dist : X → X → ℚ) (lab : X → L) (srt : (n : ℕ) → (Fin n → ℚ) → Perm (Fin n)) (hsrt : IsArgsort srt)
    (train test : List X) (bsTr bsTe : ℕ) (hTr : 0 < bsTr) (hTe : 0 < bsTe) (o p : Option (List L))
    (ho : ∀ l, o = some l → l.length = train.length) (hp : ∀ l, p = some l → l.length = test.length)
    (hK : 1 ≤ K) (hKN : K ≤ train.length) :
    ∃ M, knnAttribute K dist lab srt train test bsTr bsTe o p = .ok M ∧ ∀ j < test.length, ∀ i < train.length,
      (0 < M.f j i ↔ labelsMatch lab train test o p j i = true) ∧
      (labelsMatch lab train test o p j i = true → 1 / (train.length : ℚ) ≤ M.f j i ∧ M.f j i ≤ 1 / K) ∧
      (labelsMatch lab train test o p j i = false → 1 / (train.length : ℚ) - 1 / K ≤ M.f j i ∧ M.f j i ≤ 0) := by
  obtain ⟨M, h1, hM⟩ := row_ranks K dist lab srt hsrt train test bsTr bsTe hTr hTe o p ho hp hK (by omega)
  refine ⟨M, h1, fun j hj i hi => ?_⟩
  obtain ⟨σ, mm, -, hm, hg⟩ := hM j hj
  obtain ⟨r, hr⟩ := σ.surjective ⟨i, hi⟩
  have hr' : ((σ r : Fin train.length) : ℕ) = i := by rw [hr]
  have hN : (0 : ℚ) < train.length := by exact_mod_cast (show 0 < train.length by omega)
  have hN' : (0 : ℚ) < 1 / train.length := by positivity
  obtain ⟨b1, b2⟩ := bounds train.length K hK hKN mm (train.length - 1 - r) r (by omega)
  have hw := wt_le K r hK
  rw [← hr', ← hm r, hg r]
  have b1' : mm r = true → 1 / (train.length : ℚ) ≤ gVal train.length K mm r ∧ gVal train.length K mm r ≤ 1 / K :=
    fun h => ⟨(b1 h).1, (b1 h).2.trans hw⟩
  have b2' : mm r = false → 1 / (train.length : ℚ) - 1 / K ≤ gVal train.length K mm r ∧ gVal train.length K mm r ≤ 0 :=
    fun h => ⟨by linarith [(b2 h).1], (b2 h).2⟩
  refine ⟨⟨fun h => ?_, fun h => lt_of_lt_of_le hN' (b1' h).1⟩, b1', b2'⟩
  by_contra hc
  exact absurd (b2' (by simpa using hc)).2 (not_le.2 h)

/-- **C172** (order). Among the samples with the test sample's label closer ones are worth at least as much as farther ones; among the others closer ones are worth at
most as much. -/
theorem C172_order (K : ℕ) (dist : X → X → ℚ) (lab : X → L) (srt : (n : ℕ) → (Fin n → ℚ) → Perm (Fin n)) (hsrt : IsArgsort srt)
    (train test : List X) (bsTr bsTe : ℕ) (hTr : 0 < bsTr) (hTe : 0 < bsTe) (o p : Option (List L))
    (ho : ∀ l, o = some l → l.length = train.length) (hp : ∀ l, p = some l → l.length = test.length) (hK : 1 ≤ K) (hN : 0 < train.length) :
    ∃ M, knnAttribute K dist lab srt train test bsTr bsTe o p = .ok M ∧ ∀ j (hj : j < test.length) (a b : Fin train.length),
      dist test[j] train[a] < dist test[j] train[b] → labelsMatch lab train test o p j a = labelsMatch lab train test o p j b →
        (labelsMatch lab train test o p j a = true → M.f j b ≤ M.f j a) ∧ (labelsMatch lab train test o p j a = false → M.f j a ≤ M.f j b) := by
  obtain ⟨M, h1, hM⟩ := row_ranks K dist lab srt hsrt train test bsTr bsTe hTr hTe o p ho hp hK hN
  refine ⟨M, h1, fun j hj a b hd hl => ?_⟩
  obtain ⟨σ, mm, hσ, hm, hg⟩ := hM j hj
  obtain ⟨r, rfl⟩ := σ.surjective a
  obtain ⟨t, rfl⟩ := σ.surjective b
  have hrt : r < t := by
    by_contra hc
    exact absurd (hσ (not_lt.1 hc)) (not_le.2 hd)
  obtain ⟨b1, b2⟩ := order_match train.length K hK mm t t.2 (t - r) r (by have : (r : ℕ) < t := hrt; omega)
  rw [← hm r, ← hm t] at hl
  rw [← hm r, hg r, hg t]
  exact ⟨fun h => (b1 (hl ▸ h)).1 h, fun h => (b2 (hl ▸ h)).1 h⟩

/-- **C172** (too large `K`). For `K > N` a sample with another label has a positive value as soon as the farthest sample carries the test sample's label. -/
theorem C172_large_K (K : ℕ) (dist : X → X → ℚ) (lab : X → L) (srt : (n : ℕ) → (Fin n → ℚ) → Perm (Fin n)) (hsrt : IsArgsort srt)
    (train test : List X) (bsTr bsTe : ℕ) (hTr : 0 < bsTr) (hTe : 0 < bsTe) (o p : Option (List L))
    (ho : ∀ l, o = some l → l.length = train.length) (hp : ∀ l, p = some l → l.length = test.length)
    (hN : 0 < train.length) (hKN : train.length < K) :
    ∃ M, knnAttribute K dist lab srt train test bsTr bsTe o p = .ok M ∧ ∀ j (hj : j < test.length) (f : Fin train.length),
      (∀ a : Fin train.length, a ≠ f → dist test[j] train[a] < dist test[j] train[f]) →
      ∀ i : Fin train.length, labelsMatch lab train test o p j i = false →
        (0 < M.f j i ↔ labelsMatch lab train test o p j f = true) := by
  obtain ⟨M, h1, h2⟩ := C02_knn_shapley_large_K K dist lab srt hsrt train test bsTr bsTe hTr hTe o p ho hp hN hKN
  refine ⟨M, h1, fun j hj f hf i hi => ?_⟩
  obtain ⟨σ, hσ, h3, h4, -⟩ := h2 j hj
  have hfar : σ ⟨train.length - 1, by omega⟩ = f := by
    by_contra hc
    have h5 := hf _ hc
    obtain ⟨r, rfl⟩ := σ.surjective f
    have h6 : r ≤ ⟨train.length - 1, by omega⟩ := by
      rw [Fin.le_def]
      have := r.2
      simp only
      omega
    exact absurd (hσ h6) (not_le.2 h5)
  rw [h4 i, h3 i, hi, hfar]
  have hN' : (0 : ℚ) < train.length := by exact_mod_cast hN
  have hK' : (train.length : ℚ) < K := by exact_mod_cast hKN
  have : 0 < 1 / (train.length : ℚ) - 1 / K := sub_pos.2 (one_div_lt_one_div_of_lt hN' hK')
  cases labelsMatch lab train test o p j f <;> simp
  simpa using this

/-- Three training samples at distances 1, 2, 3 of which the second has the wrong label, `K = 2`: the first and the third value are positive, the second is not. -/
example : ∃ M, knnAttribute 2 (fun a b : ℚ × ℕ => |a.1 - b.1|) Prod.snd (fun _ f => Tuple.sort f) [(1, 7), (2, 8), (3, 7)] [(0, 7)] 2 1 none none = .ok M ∧
    0 < M.f 0 0 ∧ M.f 0 1 ≤ 0 ∧ 0 < M.f 0 2 ∧ M.f 0 2 ≤ M.f 0 0 := by
  obtain ⟨M, h, hs⟩ := C172_sign 2 (fun a b : ℚ × ℕ => |a.1 - b.1|) Prod.snd (fun _ f => Tuple.sort f) (fun _ f => Tuple.monotone_sort f)
    [(1, 7), (2, 8), (3, 7)] [(0, 7)] 2 1 (by omega) (by omega) none none (by simp) (by simp) (by omega) (by simp)
  obtain ⟨M', h', ho⟩ := C172_order 2 (fun a b : ℚ × ℕ => |a.1 - b.1|) Prod.snd (fun _ f => Tuple.sort f) (fun _ f => Tuple.monotone_sort f)
    [(1, 7), (2, 8), (3, 7)] [(0, 7)] 2 1 (by omega) (by omega) none none (by simp) (by simp) (by omega) (by simp)
  rw [h] at h'
  cases h'
  refine ⟨M, h, (hs 0 (by simp) 0 (by simp)).1.2 rfl, ((hs 0 (by simp) 1 (by simp)).2.2 rfl).2, (hs 0 (by simp) 2 (by simp)).1.2 rfl, ?_⟩
  exact (ho 0 (by simp) ⟨0, by simp⟩ ⟨2, by simp⟩ (by norm_num) rfl).1 rfl

end Verif.KNN
