import Verif.KNN.DistModel
import Verif.KNN.SignProps
import Mathlib.LinearAlgebra.Matrix.DotProduct
import Mathlib.LinearAlgebra.Matrix.Notation
import Mathlib.Data.Fin.Tuple.Sort
import Mathlib.Data.Rat.Cast.Order
import Mathlib.Algebra.BigOperators.Ring.Finset
import Mathlib.Data.Rat.BigOperators

/-!
# C198: KNN-Shapley values depend on the order of the distances only
-/

namespace Verif.KNN

open Finset Equiv

variable {X L : Type} [DecidableEq L]

/-! ### Helper lemmas -/

/-- Two permutations that sort rows with the same order: the entries of the same rank are tied. -/
theorem sorted_tied {N : ℕ} (r : Fin N → ℚ) (σ τ : Perm (Fin N)) (hσ : Monotone fun k => r (σ k)) (hτ : Monotone fun k => r (τ k)) (k : Fin N) : r (σ k) = r (τ k) := by
  have h : r ∘ σ = r ∘ τ := Tuple.unique_monotone hσ hτ
  exact congrFun h k

theorem gVal_congr (N K : ℕ) (hN : 0 < N) (hK : 0 < K) (mm mm' : ℕ → Bool) (h : ∀ i < N, mm i = mm' i) : ∀ k i, i + k = N - 1 → gVal N K mm i = gVal N K mm' i := by
  intro k
  induction k with
  | zero =>
    intro i hi
    obtain rfl : i = N - 1 := by omega
    rw [gVal_last N K hN hK, gVal_last N K hN hK, h _ (by omega)]
  | succ k ih =>
    intro i hi
    rw [step_wt N K mm i (by omega), step_wt N K mm' i (by omega), ih (i + 1) (by omega), h i (by omega), h (i + 1) (by omega)]

/-- Ranks with equal matches in between have equal values. -/
theorem gVal_flat (N K : ℕ) (mm : ℕ → Bool) (k : ℕ) : ∀ i, i + k < N → (∀ l, i ≤ l → l ≤ i + k → mm l = mm i) → gVal N K mm i = gVal N K mm (i + k) := by
  induction k with
  | zero => intro i _ _; rfl
  | succ k ih =>
    intro i hi h
    have h1 := ih i (by omega) (fun l h1 h2 => h l h1 (by omega))
    rw [h1, step_wt N K mm (i + k) (by omega), h (i + k) (by omega) (by omega), show i + k + 1 = i + (k + 1) by omega, h (i + (k + 1)) (by omega) (le_refl _)]
    simp

/-! ### Properties -/

/-- **C198** (order). Two attributions with the same training and test samples, labels and `K`, but other distances, other batch sizes and another way of sorting equal distances,
agree if the distances order the training samples in the same way and samples at equal distance from a test sample both match its label or both do not. -/
theorem C198_order (K : ℕ) (hK : 0 < K) (dist dist' : X → X → ℚ) (lab : X → L) (srt srt' : (n : ℕ) → (Fin n → ℚ) → Perm (Fin n)) (hsrt : IsArgsort srt)
    (hsrt' : IsArgsort srt') (train test : List X) (hn : 0 < train.length) (bsTr bsTe bsTr' bsTe' : ℕ) (hTr : 0 < bsTr) (hTe : 0 < bsTe) (hTr' : 0 < bsTr') (hTe' : 0 < bsTe')
    (o p : Option (List L)) (ho : ∀ l, o = some l → l.length = train.length) (hp : ∀ l, p = some l → l.length = test.length)
    (hord : ∀ t ∈ test, ∀ a ∈ train, ∀ b ∈ train, dist t a ≤ dist t b ↔ dist' t a ≤ dist' t b)
    (hties : ∀ (j : ℕ) (hj : j < test.length) (a b : Fin train.length), dist test[j] train[a] = dist test[j] train[b] →
      labelsMatch lab train test o p j a = labelsMatch lab train test o p j b) :
    ∃ M M', knnAttribute K dist lab srt train test bsTr bsTe o p = .ok M ∧ knnAttribute K dist' lab srt' train test bsTr' bsTe' o p = .ok M' ∧
      ∀ j < test.length, ∀ a < train.length, M.f j a = M'.f j a := by
  obtain ⟨M, h1, h2⟩ := row_ranks K dist lab srt hsrt train test bsTr bsTe hTr hTe o p ho hp hK hn
  obtain ⟨M', h1', h2'⟩ := row_ranks K dist' lab srt' hsrt' train test bsTr' bsTe' hTr' hTe' o p ho hp hK hn
  refine ⟨M, M', h1, h1', fun j hj a ha => ?_⟩
  obtain ⟨σ, mm, s1, s2, s3⟩ := h2 j hj
  obtain ⟨τ, mm', t1, t2, t3⟩ := h2' j hj
  have ht1 : Monotone fun k => dist test[j] train[τ k] := by
    intro x y hxy
    exact (hord _ (List.getElem_mem hj) _ (List.getElem_mem _) _ (List.getElem_mem _)).2 (t1 hxy)
  have htied := sorted_tied (fun a : Fin train.length => dist test[j] train[a]) σ τ s1 ht1
  have hmm : ∀ i < train.length, mm i = mm' i := by
    intro i hi
    rw [show mm i = mm ((⟨i, hi⟩ : Fin train.length) : ℕ) from rfl, show mm' i = mm' ((⟨i, hi⟩ : Fin train.length) : ℕ) from rfl, s2, t2]
    exact hties j hj _ _ (htied _)
  set x : Fin train.length := σ.symm ⟨a, ha⟩ with hx
  set y : Fin train.length := τ.symm ⟨a, ha⟩ with hy
  have e1 : M.f j a = gVal train.length K mm x := by
    rw [← s3 x, hx]
    simp
  have e2 : M'.f j a = gVal train.length K mm y := by
    rw [gVal_congr train.length K hn hK mm mm' hmm (train.length - 1 - y) y (by omega), ← t3 y, hy]
    simp
  rw [e1, e2]
  -- the two ranks are tied
  have hxy : dist test[j] train[σ x] = dist test[j] train[σ y] := by
    rw [htied y]
    have e : σ x = τ y := by rw [hx, hy, Equiv.apply_symm_apply, Equiv.apply_symm_apply]
    simp only [e]
  have hflat : ∀ u v : Fin train.length, u ≤ v → dist test[j] train[σ u] = dist test[j] train[σ v] → gVal train.length K mm u = gVal train.length K mm v := by
    intro u v huv he
    have hle : (u : ℕ) ≤ v := huv
    have := gVal_flat train.length K mm ((v : ℕ) - u) u (by omega) (by
      intro l l1 l2
      have hl : l < train.length := by omega
      have hl1 : (u : Fin train.length) ≤ ⟨l, hl⟩ := l1
      have hl2 : (⟨l, hl⟩ : Fin train.length) ≤ v := by
        show l ≤ v
        omega
      rw [show mm l = mm ((⟨l, hl⟩ : Fin train.length) : ℕ) from rfl, s2, s2]
      apply hties j hj
      exact le_antisymm ((s1 hl2).trans he.symm.le) (s1 hl1))
    rw [this]
    congr 1
    omega
  rcases le_total x y with h | h
  · exact hflat x y h hxy
  · exact (hflat y x h hxy.symm).symm

/-- A map that multiplies all Euclidean distances by a positive number. -/
def Similarity {d e : ℕ} (f : (Fin d → ℝ) → (Fin e → ℝ)) : Prop := ∃ c : ℝ, 0 < c ∧ ∀ x y, euclid (f x) (f y) = c * euclid x y

/-- **C198** (default distance). If the computed distances order the training samples as their Euclidean distances do, before and after changing all features by a map that
multiplies distances by a positive number, the values are the same; so adding a vector to all features, multiplying them by a number other than 0, permuting them, adding the
same further features everywhere, or an orthogonal change of basis has no effect. -/
theorem C198_similarity {d e : ℕ} (feat : X → Fin d → ℝ) (f : (Fin d → ℝ) → (Fin e → ℝ)) (hf : Similarity f)
    (K : ℕ) (hK : 0 < K) (dist dist' : X → X → ℚ) (hd : ∀ t a b, dist t a ≤ dist t b ↔ euclid (feat t) (feat a) ≤ euclid (feat t) (feat b))
    (hd' : ∀ t a b, dist' t a ≤ dist' t b ↔ euclid (f (feat t)) (f (feat a)) ≤ euclid (f (feat t)) (f (feat b))) (lab : X → L)
    (srt srt' : (n : ℕ) → (Fin n → ℚ) → Perm (Fin n)) (hsrt : IsArgsort srt)
    (hsrt' : IsArgsort srt') (train test : List X) (hn : 0 < train.length) (bsTr bsTe bsTr' bsTe' : ℕ) (hTr : 0 < bsTr) (hTe : 0 < bsTe) (hTr' : 0 < bsTr') (hTe' : 0 < bsTe')
    (o p : Option (List L)) (ho : ∀ l, o = some l → l.length = train.length) (hp : ∀ l, p = some l → l.length = test.length)
    (hties : ∀ (j : ℕ) (hj : j < test.length) (a b : Fin train.length), euclid (feat test[j]) (feat train[a]) = euclid (feat test[j]) (feat train[b]) →
      labelsMatch lab train test o p j a = labelsMatch lab train test o p j b) :
    ∃ M M', knnAttribute K dist lab srt train test bsTr bsTe o p = .ok M ∧ knnAttribute K dist' lab srt' train test bsTr' bsTe' o p = .ok M' ∧
      ∀ j < test.length, ∀ a < train.length, M.f j a = M'.f j a := by
  obtain ⟨c, hc, hf⟩ := hf
  apply C198_order K hK dist dist' lab srt srt' hsrt hsrt' train test hn bsTr bsTe bsTr' bsTe' hTr hTe hTr' hTe' o p ho hp
  · intro t _ a _ b _
    rw [hd, hd', hf, hf, mul_le_mul_iff_right₀ hc]
  · intro j hj a b h
    apply hties j hj
    exact le_antisymm ((hd _ _ _).1 h.le) ((hd _ _ _).1 h.ge)

theorem euclid_sq {d : ℕ} (x y : Fin d → ℝ) : euclid x y ^ 2 = ∑ i, (x i - y i) ^ 2 := Real.sq_sqrt (Finset.sum_nonneg fun _ _ => sq_nonneg _)

theorem euclid_nonneg {d : ℕ} (x y : Fin d → ℝ) : 0 ≤ euclid x y := Real.sqrt_nonneg _

/-- **C198** (the maps named above). -/
theorem C198_maps {d e : ℕ} :
    (∀ v : Fin d → ℝ, Similarity fun x => x + v) ∧ (∀ c : ℝ, c ≠ 0 → Similarity fun x : Fin d → ℝ => c • x) ∧
    (∀ π : Perm (Fin d), Similarity fun x : Fin d → ℝ => x ∘ π) ∧ (∀ v : Fin e → ℝ, Similarity fun x : Fin d → ℝ => Fin.append x v) ∧
    ∀ Q : Matrix (Fin d) (Fin d) ℝ, Q.transpose * Q = 1 → Similarity fun x => Q.mulVec x := by
  refine ⟨fun v => ⟨1, one_pos, fun x y => ?_⟩, fun c hc => ⟨|c|, abs_pos.2 hc, fun x y => ?_⟩, fun π => ⟨1, one_pos, fun x y => ?_⟩,
    fun v => ⟨1, one_pos, fun x y => ?_⟩, fun Q hQ => ⟨1, one_pos, fun x y => ?_⟩⟩
  · simp [euclid]
  · rw [← Real.sqrt_sq_eq_abs, euclid, euclid, ← Real.sqrt_mul (sq_nonneg c), Finset.mul_sum]
    congr 1
    apply Finset.sum_congr rfl
    intro i _
    simp only [Pi.smul_apply, smul_eq_mul]
    ring
  · rw [one_mul, euclid, euclid]
    congr 1
    exact Equiv.sum_comp π fun i => (x i - y i) ^ 2
  · rw [one_mul, euclid, euclid, Fin.sum_univ_add]
    simp
  · rw [one_mul, euclid, euclid]
    congr 1
    have h : ∀ z : Fin d → ℝ, ∑ i, (Q.mulVec z i) ^ 2 = ∑ i, z i ^ 2 := by
      intro z
      have h1 : ∀ w : Fin d → ℝ, ∑ i, w i ^ 2 = w ⬝ᵥ w := fun w => Finset.sum_congr rfl fun i _ => by ring
      rw [h1, h1, Matrix.dotProduct_mulVec, Matrix.vecMul_mulVec, hQ, Matrix.vecMul_one]
    have := h (x - y)
    rw [Matrix.mulVec_sub] at this
    simpa using this

/-- Sorting that keeps a row of equal distances as it is. -/
def keepTies (n : ℕ) (r : Fin n → ℚ) : Perm (Fin n) := if ∀ a b, r a = r b then 1 else Tuple.sort r

/-- Sorting that reverses a row of equal distances. -/
def reverseTies (n : ℕ) (r : Fin n → ℚ) : Perm (Fin n) := if ∀ a b, r a = r b then Fin.revPerm else Tuple.sort r

/-- **C198** (ties between labels). The condition on equal distances is needed: for two training samples at the same distance, of which one has the label of the test sample,
two correct ways of sorting give that sample different values. -/
theorem C198_ties : IsArgsort keepTies ∧ IsArgsort reverseTies ∧
    (knnAttribute 1 (fun _ _ : Bool => 0) id keepTies [true, false] [true] 1 1 none none).toOption.map (fun M => M.f 0 0) = some 1 ∧
    (knnAttribute 1 (fun _ _ : Bool => 0) id reverseTies [true, false] [true] 1 1 none none).toOption.map (fun M => M.f 0 0) = some (1 / 2) := by
  refine ⟨fun n r => ?_, fun n r => ?_, by decide +kernel, by decide +kernel⟩
  · unfold keepTies
    split
    · rename_i h
      exact fun a b _ => (h _ _).le
    · exact Tuple.monotone_sort r
  · unfold reverseTies
    split
    · rename_i h
      exact fun a b _ => (h _ _).le
    · exact Tuple.monotone_sort r

/-- **C198** (constructor). A task is a `NotImplementedError`; without one the given distance is used, or the default one. -/
theorem C198_construct {T D : Type} (default : D) (k : ℕ) (task : Option T) (dist : Option D) :
    (construct default k task dist = .error .notImplementedError ↔ task ≠ none) ∧
    (∀ r, construct default k task dist = .ok r ↔ task = none ∧ r = (k, match dist with | some f => f | none => default)) := by
  cases task <;> cases dist <;> simp [construct, eq_comm]

/-- Squared distances of rational features meet the hypothesis on the computed distances. -/
example {d : ℕ} (q : Fin 3 → Fin d → ℚ) (t a b : Fin 3) :
    (∑ i, (q t i - q a i) ^ 2 : ℚ) ≤ ∑ i, (q t i - q b i) ^ 2 ↔ euclid (fun i => (q t i : ℝ)) (fun i => (q a i : ℝ)) ≤ euclid (fun i => (q t i : ℝ)) fun i => (q b i : ℝ) := by
  rw [euclid, euclid, Real.sqrt_le_sqrt_iff (Finset.sum_nonneg fun _ _ => sq_nonneg _)]
  rw [← Rat.cast_le (K := ℝ)]
  push_cast
  exact Iff.rfl

end Verif.KNN
