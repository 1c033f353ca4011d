import Verif.Attr.Props
import Verif.Attr.RelatifModel
import Mathlib.LinearAlgebra.Matrix.DotProduct
import Mathlib.LinearAlgebra.Matrix.PosDef
import Mathlib.Algebra.Order.BigOperators.Ring.Finset
import Mathlib.Tactic.Positivity
import Mathlib.Tactic.Linarith
import Mathlib.Tactic.FieldSimp

/-!
# C126: relative influence
-/

namespace Verif.Attr

open Matrix

variable {X C : Type} {p : Nat}

lemma accumulate_ok' (solve : List X → (Fin p → ℝ) → Option (Fin p → ℝ)) (full : Loader X) (hs : full.supported = true)
    (P : Nat → Matrix (Fin p) (Fin p) ℝ) (hP : ∀ b < full.nb, ∀ v, solve (full.batch b) v = some (P b *ᵥ v)) (v : Fin p → ℝ) :
    accumulate solve full v = .ok ((∑ b ∈ Finset.range full.nb, P b) *ᵥ v) := by
  rw [accumulate_ok solve full v hs (fun b => P b *ᵥ v) (fun b hb => hP b hb v), sum_mulVec]

/-- **C126** (scores). If on every batch of the full loader the solver applies a matrix `P c b`, the entry of the score matrix is the
mean over the checkpoints of `g_i · P g_j` divided by `sqrt(max(g'_i · P g_i, 1e-12))` for `"l"` and by `max(|P g_i|, 1e-12)` for
`"theta"`, where `P` is the sum of the `P c b` over all batches and `g'_i` the gradient of the target function at the training
sample. -/
theorem C126_scores (gTrain gTest : C → X → Fin p → ℝ) (solve : C → List X → (Fin p → ℝ) → Option (Fin p → ℝ)) (ckpts : List C)
    (full tr te : Loader X) (h1 : 0 < tr.bs) (h2 : 0 < te.bs) (s1 : tr.supported = true) (s2 : te.supported = true)
    (s3 : full.supported = true) (P : C → Nat → Matrix (Fin p) (Fin p) ℝ)
    (hP : ∀ c, ∀ b < full.nb, ∀ v, solve c (full.batch b) v = some (P c b *ᵥ v)) :
    (∃ M, (attribute' (relSub gTrain gTest solve) ckpts (some full) (some "l") tr te).2 = .ok M ∧ M.r = tr.data.length ∧
      M.c = te.data.length ∧ ∀ i (hi : i < tr.data.length) j (hj : j < te.data.length),
        M.f i j = (ckpts.map fun c =>
          (gTrain c tr.data[i] ⬝ᵥ (∑ b ∈ Finset.range full.nb, P c b) *ᵥ gTest c te.data[j]) /
          Real.sqrt (max (gTest c tr.data[i] ⬝ᵥ (∑ b ∈ Finset.range full.nb, P c b) *ᵥ gTrain c tr.data[i]) (1 / 10 ^ 12))).sum /
            ckpts.length) ∧
    (∃ M, (attribute' (relSub gTrain gTest solve) ckpts (some full) (some "theta") tr te).2 = .ok M ∧ M.r = tr.data.length ∧
      M.c = te.data.length ∧ ∀ i (hi : i < tr.data.length) j (hj : j < te.data.length),
        M.f i j = (ckpts.map fun c =>
          (gTrain c tr.data[i] ⬝ᵥ (∑ b ∈ Finset.range full.nb, P c b) *ᵥ gTest c te.data[j]) /
          max (Real.sqrt (((∑ b ∈ Finset.range full.nb, P c b) *ᵥ gTrain c tr.data[i]) ⬝ᵥ
            ((∑ b ∈ Finset.range full.nb, P c b) *ᵥ gTrain c tr.data[i]))) (1 / 10 ^ 12)).sum / ckpts.length) := by
  have hz : (10 : ℝ) ^ (-12 : ℤ) = 1 / 10 ^ 12 := by norm_num
  constructor
  · obtain ⟨M, e, r, c, f⟩ := C05_attribute_entry (relSub gTrain gTest solve) ckpts (some full) (some "l") tr te h1 h2 s1 s2
      (by rintro s ⟨⟩; rfl)
    refine ⟨M, e, r, c, fun i hi j hj => ?_⟩
    rw [f i hi j hj]
    congr 2
    apply List.map_congr_left
    intro c _
    simp only [score, relSub, Option.getD_some, computeDenom, accumulate_ok' (solve c) full s3 (P c) (hP c), bind, Except.bind, if_true, hz]
    rfl
  · obtain ⟨M, e, r, c, f⟩ := C05_attribute_entry (relSub gTrain gTest solve) ckpts (some full) (some "theta") tr te h1 h2 s1 s2
      (by rintro s ⟨⟩; rfl)
    refine ⟨M, e, r, c, fun i hi j hj => ?_⟩
    rw [f i hi j hj]
    congr 2
    apply List.map_congr_left
    intro c _
    have hne : ("theta" : String) ≠ "l" := by decide
    simp only [score, relSub, Option.getD_some, computeDenom, accumulate_ok' (solve c) full s3 (P c) (hP c), bind, Except.bind,
      if_true, hz, if_neg hne]
    simp only [dotProduct, pow_two]

/-- **C126** (errors). Order of the failures for one training sample: an unusable full loader first, then a singular batch, and only
then the method string. With an empty full loader the denominators are the floors `1e-6` and `1e-12`. -/
theorem C126_errors (solve : List X → (Fin p → ℝ) → Option (Fin p → ℝ)) (full : Loader X) (m : String) (g g' : Fin p → ℝ) :
    (0 < full.nb → full.supported = false → computeDenom solve full m g (some g') = .error .typeError) ∧
    (full.supported = true → (∃ b < full.nb, solve (full.batch b) g = none) →
      computeDenom solve full m g (some g') = .error .runtimeError) ∧
    (full.supported = true → (∀ b < full.nb, solve (full.batch b) g ≠ none) →
      (computeDenom solve full m g (some g') = .error .valueError ↔ m ≠ "l" ∧ m ≠ "theta") ∧
      (m = "l" ∨ m = "theta" → ∃ r, computeDenom solve full m g (some g') = .ok r)) ∧
    (full.nb = 0 → computeDenom solve full "l" g (some g') = .ok (1 / 10 ^ 6) ∧
      computeDenom solve full "theta" g (some g') = .ok (1 / 10 ^ 12)) := by
  have hne : ("theta" : String) ≠ "l" := by decide
  have hz : (10 : ℝ) ^ (-12 : ℤ) = 1 / 10 ^ 12 := by norm_num
  refine ⟨fun hn hs => ?_, fun hs ⟨b, hb, h⟩ => ?_, fun hs h => ?_, fun hn => ?_⟩
  · obtain ⟨k, hk⟩ := Nat.exists_eq_succ_of_ne_zero hn.ne'
    simp [computeDenom, accumulate, hk, List.range_succ_eq_map, hs, bind, Except.bind]
  · simp [computeDenom, accumulate_error solve full g hs b hb h, bind, Except.bind]
  · have : ∃ u : Nat → Fin p → ℝ, ∀ b < full.nb, solve (full.batch b) g = some (u b) := by
      refine ⟨fun b => (solve (full.batch b) g).getD 0, fun b hb => ?_⟩
      cases hc : solve (full.batch b) g with
      | none => exact absurd hc (h b hb)
      | some u => simp [hc]
    obtain ⟨u, hu⟩ := this
    simp only [computeDenom, accumulate_ok solve full g hs u hu, bind, Except.bind]
    by_cases hl : m = "l"
    · subst hl; simp
    · by_cases ht : m = "theta"
      · subst ht; simp [hne]
      · simp [hl, ht]
  · simp only [computeDenom, accumulate, hn, List.range_zero, List.foldlM_nil, bind, Except.bind, pure, Except.pure, if_true, if_neg hne]
    constructor
    · simp only [Pi.zero_apply, mul_zero, Finset.sum_const_zero, hz]
      rw [max_eq_right (by positivity), show (1 : ℝ) / 10 ^ 12 = (1 / 10 ^ 6) ^ 2 by norm_num, Real.sqrt_sq (by positivity)]
    · simp

/-- **C126** (attributors without a denominator of their own). For the Arnoldi, DataInf and EK-FAC attributors every method string,
known or not, is accepted and the scores are the plain ones. -/
theorem C126_ignored {R : Type} [Field R] {d : Nat} (gTrain gTest : C → X → Fin p → R) (tTrain : C → (Fin p → R) → Fin d → R)
    (tTest : C → Loader X → (Fin p → R) → Fin d → R) (ckpts : List C) (st : Option (Loader X)) (m : String) (tr te : Loader X) :
    attribute' (plainSub gTrain gTest tTrain tTest) ckpts st (some m) tr te
      = attribute' (plainSub gTrain gTest tTrain tTest) ckpts st none tr te := by
  have : ∀ c trb teb, block (plainSub gTrain gTest tTrain tTest) (st.getD tr) c (some m) trb teb
      = block (plainSub gTrain gTest tTrain tTest) (st.getD tr) c none trb teb := by
    intro c trb teb
    simp only [block, denomOf]
    congr
    funext i j
    split <;> simp [plainSub]
  simp only [attribute', attributeLoop, trainLoop, testLoop, this, badMethod]
  simp [plainSub]

/-! ## Bounds and invariance, on the score formulas of `C126_scores` -/

lemma dot_sym {P : Matrix (Fin p) (Fin p) ℝ} (hP : Pᵀ = P) (u v : Fin p → ℝ) : u ⬝ᵥ P *ᵥ v = (P *ᵥ u) ⬝ᵥ v := by
  rw [dotProduct_mulVec, ← mulVec_transpose, hP]

lemma cs (u v : Fin p → ℝ) : |u ⬝ᵥ v| ≤ Real.sqrt (u ⬝ᵥ u) * Real.sqrt (v ⬝ᵥ v) := by
  rw [← Real.sqrt_mul (show 0 ≤ u ⬝ᵥ u from Finset.sum_nonneg fun k _ => mul_self_nonneg (u k))]
  apply Real.abs_le_sqrt
  have := Finset.sum_mul_sq_le_sq_mul_sq Finset.univ u v
  simpa [dotProduct, pow_two] using this

lemma abs_sum_div_le (l : List C) (f : C → ℝ) (B : ℝ) (hB : 0 ≤ B) (h : ∀ c ∈ l, |f c| ≤ B) : |(l.map f).sum / l.length| ≤ B := by
  rcases l with _ | ⟨a, l⟩
  · simpa using hB
  have hs : ∀ l : List C, (∀ c ∈ l, |f c| ≤ B) → |(l.map f).sum| ≤ l.length * B := by
    intro l
    induction l with
    | nil => simp
    | cons a l ih =>
      intro h
      have h1 := h a (by simp)
      have h2 := ih (fun c hc => h c (by simp [hc]))
      simp only [List.map_cons, List.sum_cons, List.length_cons]
      push_cast
      calc _ ≤ |f a| + |(l.map f).sum| := abs_add_le _ _
        _ ≤ _ := by linarith
  rw [abs_div, Nat.abs_cast, div_le_iff₀ (by simp; positivity), mul_comm]
  exact hs _ h

/-- **C126** (bound for `"theta"`). If the solver's matrices are symmetric, as inverses of regularised Hessians are, no training sample
has a score above the norm of the test gradient in absolute value, whatever the Hessians, the regularisation and the number of
batches are (`B` bounds the norm over the checkpoints). -/
theorem C126_theta_bound (gTrain gTest : C → X → Fin p → ℝ) (solve : C → List X → (Fin p → ℝ) → Option (Fin p → ℝ)) (ckpts : List C)
    (full tr te : Loader X) (h1 : 0 < tr.bs) (h2 : 0 < te.bs) (s1 : tr.supported = true) (s2 : te.supported = true)
    (s3 : full.supported = true) (P : C → Nat → Matrix (Fin p) (Fin p) ℝ)
    (hP : ∀ c, ∀ b < full.nb, ∀ v, solve c (full.batch b) v = some (P c b *ᵥ v)) (hsym : ∀ c, ∀ b < full.nb, (P c b)ᵀ = P c b) :
    ∃ M, (attribute' (relSub gTrain gTest solve) ckpts (some full) (some "theta") tr te).2 = .ok M ∧
      ∀ i (_ : i < tr.data.length) j (hj : j < te.data.length) (B : ℝ), 0 ≤ B →
        (∀ c ∈ ckpts, Real.sqrt (gTest c te.data[j] ⬝ᵥ gTest c te.data[j]) ≤ B) → |M.f i j| ≤ B := by
  obtain ⟨-, M, e, -, -, f⟩ := C126_scores gTrain gTest solve ckpts full tr te h1 h2 s1 s2 s3 P hP
  refine ⟨M, e, fun i hi j hj B hB hb => ?_⟩
  rw [f i hi j hj]
  apply abs_sum_div_le _ _ _ hB
  intro c hc
  have hS : (∑ b ∈ Finset.range full.nb, P c b)ᵀ = ∑ b ∈ Finset.range full.nb, P c b := by
    rw [transpose_sum]
    exact Finset.sum_congr rfl fun b hb => hsym c b (Finset.mem_range.1 hb)
  set Q := ∑ b ∈ Finset.range full.nb, P c b
  have hpos : (0 : ℝ) < max (Real.sqrt ((Q *ᵥ gTrain c tr.data[i]) ⬝ᵥ (Q *ᵥ gTrain c tr.data[i]))) (1 / 10 ^ 12) :=
    lt_max_of_lt_right (by positivity)
  rw [abs_div, abs_of_pos hpos, div_le_iff₀ hpos, dot_sym hS]
  calc _ ≤ _ := cs _ _
    _ ≤ _ := by
      rw [mul_comm]
      exact mul_le_mul (hb c hc) (le_max_left _ _) (Real.sqrt_nonneg _) hB

/-- Cauchy–Schwarz for a positive semidefinite form. -/
lemma cs_psd {Q : Matrix (Fin p) (Fin p) ℝ} (hS : Qᵀ = Q) (hQ : ∀ v, 0 ≤ v ⬝ᵥ Q *ᵥ v) (u v : Fin p → ℝ) :
    (u ⬝ᵥ Q *ᵥ v) ^ 2 ≤ (u ⬝ᵥ Q *ᵥ u) * (v ⬝ᵥ Q *ᵥ v) := by
  have hsw : v ⬝ᵥ Q *ᵥ u = u ⬝ᵥ Q *ᵥ v := by rw [dot_sym hS, dotProduct_comm]
  have key : ∀ s t : ℝ, 0 ≤ s ^ 2 * (u ⬝ᵥ Q *ᵥ u) + 2 * s * t * (u ⬝ᵥ Q *ᵥ v) + t ^ 2 * (v ⬝ᵥ Q *ᵥ v) := by
    intro s t
    have := hQ (s • u + t • v)
    simp only [mulVec_add, mulVec_smul, add_dotProduct, dotProduct_add, smul_dotProduct, dotProduct_smul, smul_eq_mul, hsw] at this
    nlinarith [this]
  set a := u ⬝ᵥ Q *ᵥ u
  set b := u ⬝ᵥ Q *ᵥ v
  set d := v ⬝ᵥ Q *ᵥ v
  have ha : 0 ≤ a := hQ u
  have hd : 0 ≤ d := hQ v
  by_cases hd0 : d = 0
  · have hb : b = 0 := by
      by_contra hb
      have h1 := key 1 (-(a + 1) / (2 * b))
      rw [hd0] at h1
      have : 2 * 1 * (-(a + 1) / (2 * b)) * b = -(a + 1) := by field_simp
      rw [this] at h1
      linarith
    rw [hb, hd0]; simp
  · have h1 := key d (-b)
    have hd' : 0 < d := lt_of_le_of_ne hd (Ne.symm hd0)
    have h2 : 0 ≤ d * (a * d - b ^ 2) := by nlinarith [h1]
    have := nonneg_of_mul_nonneg_right h2 hd'
    linarith

/-- **C126** (bound for `"l"`). If the solver's matrices are symmetric and positive semidefinite and the target function is the loss, no
score exceeds `sqrt(g_j · P g_j)`, the self-influence of the test sample, in absolute value. -/
theorem C126_l_bound (g : C → X → Fin p → ℝ) (solve : C → List X → (Fin p → ℝ) → Option (Fin p → ℝ)) (ckpts : List C)
    (full tr te : Loader X) (h1 : 0 < tr.bs) (h2 : 0 < te.bs) (s1 : tr.supported = true) (s2 : te.supported = true)
    (s3 : full.supported = true) (P : C → Nat → Matrix (Fin p) (Fin p) ℝ)
    (hP : ∀ c, ∀ b < full.nb, ∀ v, solve c (full.batch b) v = some (P c b *ᵥ v)) (hsym : ∀ c, ∀ b < full.nb, (P c b)ᵀ = P c b)
    (hpsd : ∀ c, ∀ b < full.nb, ∀ v, 0 ≤ v ⬝ᵥ P c b *ᵥ v) :
    ∃ M, (attribute' (relSub g g solve) ckpts (some full) (some "l") tr te).2 = .ok M ∧
      ∀ i (_ : i < tr.data.length) j (hj : j < te.data.length) (B : ℝ), 0 ≤ B →
        (∀ c ∈ ckpts, g c te.data[j] ⬝ᵥ (∑ b ∈ Finset.range full.nb, P c b) *ᵥ g c te.data[j] ≤ B ^ 2) → |M.f i j| ≤ B := by
  obtain ⟨⟨M, e, -, -, f⟩, -⟩ := C126_scores g g solve ckpts full tr te h1 h2 s1 s2 s3 P hP
  refine ⟨M, e, fun i hi j hj B hB hb => ?_⟩
  rw [f i hi j hj]
  apply abs_sum_div_le _ _ _ hB
  intro c hc
  have hS : (∑ b ∈ Finset.range full.nb, P c b)ᵀ = ∑ b ∈ Finset.range full.nb, P c b := by
    rw [transpose_sum]
    exact Finset.sum_congr rfl fun b hb => hsym c b (Finset.mem_range.1 hb)
  have hQ : ∀ v, 0 ≤ v ⬝ᵥ (∑ b ∈ Finset.range full.nb, P c b) *ᵥ v := by
    intro v
    rw [sum_mulVec, dotProduct_sum]
    exact Finset.sum_nonneg fun b hb => hpsd c b (Finset.mem_range.1 hb) v
  have hc' := hb c hc
  set Q := ∑ b ∈ Finset.range full.nb, P c b
  set u := g c tr.data[i]
  set v := g c te.data[j]
  have hpos : (0 : ℝ) < Real.sqrt (max (u ⬝ᵥ Q *ᵥ u) (1 / 10 ^ 12)) := Real.sqrt_pos.2 (lt_max_of_lt_right (by positivity))
  rw [abs_div, abs_of_pos hpos, div_le_iff₀ hpos]
  have h3 : |u ⬝ᵥ Q *ᵥ v| ≤ Real.sqrt ((u ⬝ᵥ Q *ᵥ u) * (v ⬝ᵥ Q *ᵥ v)) := Real.abs_le_sqrt (cs_psd hS hQ u v)
  refine h3.trans ?_
  rw [mul_comm B, Real.sqrt_mul (hQ u)]
  have h4 : Real.sqrt (v ⬝ᵥ Q *ᵥ v) ≤ B := Real.sqrt_le_iff.2 ⟨hB, hc'⟩
  exact mul_le_mul (Real.sqrt_le_sqrt (le_max_left _ _)) h4 (Real.sqrt_nonneg _) hpos.le

/-- **C126** (number of batches). If all `n` batches have the same solver matrix `Q` (equal batch Hessians), then away from the floors the
`"theta"` score of one checkpoint does not depend on `n`, while the `"l"` score is `sqrt n` times the score `a/sqrt q` of a single
batch. -/
theorem C126_batches (gTrain gTest : C → X → Fin p → ℝ) (solve : C → List X → (Fin p → ℝ) → Option (Fin p → ℝ)) (c : C)
    (full tr te : Loader X) (h1 : 0 < tr.bs) (h2 : 0 < te.bs) (s1 : tr.supported = true) (s2 : te.supported = true)
    (s3 : full.supported = true) (hn : 0 < full.nb) (Q : Matrix (Fin p) (Fin p) ℝ)
    (hP : ∀ b < full.nb, ∀ v, solve c (full.batch b) v = some (Q *ᵥ v)) :
    ∃ Ml Mt, (attribute' (relSub gTrain gTest solve) [c] (some full) (some "l") tr te).2 = .ok Ml ∧
      (attribute' (relSub gTrain gTest solve) [c] (some full) (some "theta") tr te).2 = .ok Mt ∧
      ∀ i (hi : i < tr.data.length) j (hj : j < te.data.length),
        (1 / 10 ^ 12 ≤ gTest c tr.data[i] ⬝ᵥ Q *ᵥ gTrain c tr.data[i] →
          Ml.f i j = Real.sqrt full.nb * ((gTrain c tr.data[i] ⬝ᵥ Q *ᵥ gTest c te.data[j]) /
            Real.sqrt (gTest c tr.data[i] ⬝ᵥ Q *ᵥ gTrain c tr.data[i]))) ∧
        (1 / 10 ^ 12 ≤ Real.sqrt ((Q *ᵥ gTrain c tr.data[i]) ⬝ᵥ (Q *ᵥ gTrain c tr.data[i])) →
          Mt.f i j = (gTrain c tr.data[i] ⬝ᵥ Q *ᵥ gTest c te.data[j]) /
            Real.sqrt ((Q *ᵥ gTrain c tr.data[i]) ⬝ᵥ (Q *ᵥ gTrain c tr.data[i]))) := by
  have hlift : ∀ m, attribute' (relSub gTrain gTest solve) [c] (some full) m tr te
      = attribute' (relSub gTrain gTest (fun _ => solve c)) [c] (some full) m tr te := by
    intro m; cases m <;> rfl
  obtain ⟨⟨Ml, e, -, -, f⟩, Mt, e', -, -, f'⟩ :=
    C126_scores gTrain gTest (fun _ => solve c) [c] full tr te h1 h2 s1 s2 s3 (fun _ _ => Q) (fun _ => hP)
  refine ⟨Ml, Mt, by rw [hlift]; exact e, by rw [hlift]; exact e', fun i hi j hj => ?_⟩
  have hn1 : (1 : ℝ) ≤ full.nb := by exact_mod_cast hn
  have hn0 : (0 : ℝ) < full.nb := by linarith
  have hsum : (∑ _b ∈ Finset.range full.nb, Q) = (full.nb : ℝ) • Q := by simp [Nat.cast_smul_eq_nsmul]
  constructor
  · intro hq
    rw [f i hi j hj]
    simp only [hsum, List.map_cons, List.map_nil, List.sum_cons, List.sum_nil, List.length_singleton, Nat.cast_one, add_zero, div_one,
      smul_mulVec, dotProduct_smul, smul_eq_mul]
    set q := gTest c tr.data[i] ⬝ᵥ Q *ᵥ gTrain c tr.data[i]
    have hq0 : 0 < q := lt_of_lt_of_le (by positivity) hq
    rw [max_eq_left (by nlinarith), Real.sqrt_mul hn0.le]
    have h5 : Real.sqrt full.nb * Real.sqrt full.nb = full.nb := Real.mul_self_sqrt hn0.le
    have h6 : Real.sqrt full.nb ≠ 0 := (Real.sqrt_pos.2 hn0).ne'
    have h7 : Real.sqrt q ≠ 0 := (Real.sqrt_pos.2 hq0).ne'
    set a := gTrain c tr.data[i] ⬝ᵥ Q *ᵥ gTest c te.data[j]
    rw [div_eq_iff (mul_ne_zero h6 h7)]
    calc (full.nb : ℝ) * a = (Real.sqrt full.nb * Real.sqrt full.nb) * a := by rw [h5]
      _ = _ := by field_simp
  · intro hq
    rw [f' i hi j hj]
    simp only [hsum, List.map_cons, List.map_nil, List.sum_cons, List.sum_nil, List.length_singleton, Nat.cast_one, add_zero, div_one,
      smul_mulVec, dotProduct_smul, smul_dotProduct, smul_eq_mul]
    set t := (Q *ᵥ gTrain c tr.data[i]) ⬝ᵥ (Q *ᵥ gTrain c tr.data[i])
    have h8 : Real.sqrt ((full.nb : ℝ) * (full.nb * t)) = full.nb * Real.sqrt t := by
      rw [← mul_assoc, Real.sqrt_mul (by positivity), Real.sqrt_mul_self hn0.le]
    rw [h8, max_eq_left (by nlinarith), mul_div_mul_left _ _ hn0.ne']

/-- **C126** (floor). Where the quadratic form of a training sample is not above `1e-12`, negative values of an indefinite Hessian
included, the `"l"` score of one checkpoint is `10^6` times the plain influence. -/
theorem C126_floor (gTrain gTest : C → X → Fin p → ℝ) (solve : C → List X → (Fin p → ℝ) → Option (Fin p → ℝ)) (c : C)
    (full tr te : Loader X) (h1 : 0 < tr.bs) (h2 : 0 < te.bs) (s1 : tr.supported = true) (s2 : te.supported = true)
    (s3 : full.supported = true) (P : C → Nat → Matrix (Fin p) (Fin p) ℝ)
    (hP : ∀ c, ∀ b < full.nb, ∀ v, solve c (full.batch b) v = some (P c b *ᵥ v)) :
    ∃ M M0, (attribute' (relSub gTrain gTest solve) [c] (some full) (some "l") tr te).2 = .ok M ∧
      (attribute' (relSub gTrain gTest solve) [c] (some full) none tr te).2 = .ok M0 ∧
      ∀ i (hi : i < tr.data.length) j (_ : j < te.data.length),
        gTest c tr.data[i] ⬝ᵥ (∑ b ∈ Finset.range full.nb, P c b) *ᵥ gTrain c tr.data[i] ≤ 1 / 10 ^ 12 →
        M.f i j = 10 ^ 6 * M0.f i j := by
  obtain ⟨⟨M, e, -, -, f⟩, -⟩ := C126_scores gTrain gTest solve [c] full tr te h1 h2 s1 s2 s3 P hP
  obtain ⟨M0, e0, -, -, f0⟩ := C05_attribute_entry (relSub gTrain gTest solve) [c] (some full) none tr te h1 h2 s1 s2 (by simp)
  refine ⟨M, M0, e, e0, fun i hi j hj hq => ?_⟩
  rw [f i hi j hj, f0 i hi j hj]
  simp only [List.map_cons, List.map_nil, List.sum_cons, List.sum_nil, List.length_singleton, Nat.cast_one, add_zero, div_one,
    max_eq_right hq, score, relSub, Option.getD_some, accumulate_ok' (solve c) full s3 (P c) (hP c)]
  rw [show (1 : ℝ) / 10 ^ 12 = (1 / 10 ^ 6) ^ 2 by norm_num, Real.sqrt_sq (by positivity)]
  rw [div_div_eq_mul_div, div_one, mul_comm]
  rfl

/-- **C126.** The hypotheses above hold for the explicit attributor: with nonsingular regularised batch Hessians the solver applies their
inverses, which are symmetric because Hessians are, and positive semidefinite if all regularised batch Hessians are. -/
theorem C126_explicit (hess : C → List X → Matrix (Fin p) (Fin p) ℝ) (reg : ℝ) (full : Loader X) (hsym : ∀ c l, (hess c l)ᵀ = hess c l)
    (hdet : ∀ c, ∀ b < full.nb, (hess c (full.batch b) + reg • (1 : Matrix (Fin p) (Fin p) ℝ)).det ≠ 0) :
    ∃ P : C → Nat → Matrix (Fin p) (Fin p) ℝ,
      (∀ c, ∀ b < full.nb, ∀ v, ihvpExplicit (hess c (full.batch b)) reg v = some (P c b *ᵥ v) ∧
        (hess c (full.batch b) + reg • (1 : Matrix (Fin p) (Fin p) ℝ)) *ᵥ (P c b *ᵥ v) = v) ∧
      (∀ c, ∀ b < full.nb, (P c b)ᵀ = P c b) ∧
      ((∀ c, ∀ b < full.nb, ∀ v, 0 ≤ v ⬝ᵥ (hess c (full.batch b) + reg • (1 : Matrix (Fin p) (Fin p) ℝ)) *ᵥ v) →
        ∀ c, ∀ b < full.nb, ∀ v, 0 ≤ v ⬝ᵥ P c b *ᵥ v) := by
  have hinv : ∀ c, ∀ b < full.nb, ∀ v, (hess c (full.batch b) + reg • (1 : Matrix (Fin p) (Fin p) ℝ)) *ᵥ
      ((hess c (full.batch b) + reg • (1 : Matrix (Fin p) (Fin p) ℝ))⁻¹ *ᵥ v) = v := by
    intro c b hb v
    rw [mulVec_mulVec, mul_nonsing_inv _ (hdet c b hb).isUnit, one_mulVec]
  refine ⟨fun c b => (hess c (full.batch b) + reg • (1 : Matrix (Fin p) (Fin p) ℝ))⁻¹, fun c b hb v => ⟨?_, hinv c b hb v⟩,
    fun c b hb => ?_, fun h c b hb v => ?_⟩
  · simp [ihvpExplicit, linSolve, hdet c b hb]
  · rw [transpose_nonsing_inv, transpose_add, hsym, transpose_smul, transpose_one]
  · have h1 := h c b hb ((hess c (full.batch b) + reg • (1 : Matrix (Fin p) (Fin p) ℝ))⁻¹ *ᵥ v)
    rw [hinv c b hb v, dotProduct_comm] at h1
    exact h1

/-! Non-vacuity: one parameter, two batches, solver matrix 4: training gradient 3, test gradient 5. -/
example : ∃ Ml Mt, (attribute' (relSub (p := 1) (fun (_ : Unit) (x : ℝ) _ => x) (fun _ x _ => x) (fun _ _ v => some ((4 : ℝ) • v)))
      [()] (some ⟨[0, 0], 1, true⟩) (some "l") ⟨[3], 1, true⟩ ⟨[5], 1, true⟩).2 = .ok Ml ∧
    (attribute' (relSub (p := 1) (fun (_ : Unit) (x : ℝ) _ => x) (fun _ x _ => x) (fun _ _ v => some ((4 : ℝ) • v)))
      [()] (some ⟨[0, 0], 1, true⟩) (some "theta") ⟨[3], 1, true⟩ ⟨[5], 1, true⟩).2 = .ok Mt ∧
    Ml.f 0 0 = Real.sqrt 2 * 10 ∧ Mt.f 0 0 = 5 := by
  obtain ⟨Ml, Mt, e, e', h⟩ := C126_batches (p := 1) (fun (_ : Unit) (x : ℝ) _ => x) (fun _ x _ => x)
    (fun _ _ v => some ((4 : ℝ) • v)) () ⟨[0, 0], 1, true⟩ ⟨[3], 1, true⟩ ⟨[5], 1, true⟩ (by norm_num) (by norm_num) rfl rfl rfl
    (by decide) ((4 : ℝ) • (1 : Matrix (Fin 1) (Fin 1) ℝ)) (by intro b _ v; simp [smul_mulVec])
  obtain ⟨hl, ht⟩ := h 0 (by decide) 0 (by decide)
  refine ⟨Ml, Mt, e, e', ?_, ?_⟩
  · have h4 : Real.sqrt 4 = 2 := by rw [show (4 : ℝ) = 2 ^ 2 by norm_num, Real.sqrt_sq (by norm_num)]
    rw [hl (by simp [smul_mulVec, dotProduct]; norm_num)]
    simp [smul_mulVec, dotProduct, Loader.nb, numBatches, h4]; norm_num
    rw [show Real.sqrt 3 * (2 * Real.sqrt 3) = 2 * (Real.sqrt 3 * Real.sqrt 3) by ring, Real.mul_self_sqrt (by norm_num)]; norm_num
  · rw [ht (by simp [smul_mulVec, dotProduct]; norm_num)]
    simp [smul_mulVec, dotProduct]; norm_num

end Verif.Attr
