import Verif.Projection.TailLemmas
import Verif.Projection.NormalProps
import Mathlib.Analysis.SpecialFunctions.Log.Basic
import Mathlib.Analysis.Complex.ExponentialBounds

/-!
# C237: the projection dimension has to grow only with the logarithm of the number of scores
-/

namespace Verif.Projection

open MeasureTheory ProbabilityTheory Finset

variable {d p : ℕ}

/-! ### Helper lemmas -/

lemma gauss_entries : Entries (d := d) (p := p) (fun q (G : Fin d × Fin p → ℝ) => G q) (gauss (Fin d × Fin p)) := by
  have hlin : ∀ q : Fin d × Fin p, (fun G : Fin d × Fin p → ℝ => G q) = lin fun i => if i = q then 1 else 0 := by
    intro q
    funext G
    simp [lin]
  refine ⟨iIndepFun_pi (X := fun _ => id) fun _ => aemeasurable_id, fun q => measurable_pi_apply q, fun q => ?_, fun q => ?_, fun q => ?_⟩
  · rw [hlin]
    refine ⟨fun t => integrable_exp_lin _ t, fun t => ?_⟩
    rw [mgf_lin]
    simp
  · have := integral_comp_eval (μ := fun _ : Fin d × Fin p => gaussianReal 0 1) (i := q) (f := fun x : ℝ => x) (by fun_prop)
    rw [gauss, this, integral_id_gaussianReal]
  · have h2 := (gauss_two (fun i => if i = q then (1 : ℝ) else 0) (fun i => if i = q then (1 : ℝ) else 0)).2
    have e : (fun G : Fin d × Fin p → ℝ => G q ^ 2) = fun G => lin (fun i => if i = q then (1 : ℝ) else 0) G * lin (fun i => if i = q then (1 : ℝ) else 0) G := by
      funext G
      simp [lin, pow_two]
    rw [e, h2]
    simp

/-- A fair coin. -/
noncomputable def coin : Measure Bool := (2⁻¹ : ENNReal) • Measure.dirac true + (2⁻¹ : ENNReal) • Measure.dirac false

instance : IsProbabilityMeasure coin := ⟨by simp [coin, ENNReal.inv_two_add_inv_two]⟩

lemma integral_coin (f : Bool → ℝ) : ∫ b, f b ∂coin = (f true + f false) / 2 := by
  have hi : ∀ b : Bool, Integrable f ((2⁻¹ : ENNReal) • Measure.dirac b) := fun b => (integrable_dirac (by simp)).smul_measure (by simp)
  rw [coin, integral_add_measure (hi true) (hi false), integral_smul_measure, integral_smul_measure, integral_dirac, integral_dirac]
  simp
  ring

/-- Independent fair coins. -/
noncomputable def coins (ι : Type) [Fintype ι] : Measure (ι → Bool) := Measure.pi fun _ => coin

instance {ι : Type} [Fintype ι] : IsProbabilityMeasure (coins ι) := by unfold coins; infer_instance

lemma coins_count {ι : Type} [Fintype ι] [DecidableEq ι] (T : Finset (ι → Bool)) : (coins ι).real T = #T / 2 ^ Fintype.card ι := by
  have h1 : ∀ S : ι → Bool, (coins ι).real {S} = (1 / 2) ^ Fintype.card ι := by
    intro S
    have hc : ∀ b : Bool, coin {b} = 2⁻¹ := by
      intro b
      cases b <;> simp [coin]
    rw [Measure.real, coins, Measure.pi_singleton]
    simp [hc]
  rw [← sum_measureReal_singleton]
  simp only [h1, sum_const, nsmul_eq_mul]
  rw [div_pow, one_pow]
  ring

lemma coin_entries : Entries (d := d) (p := p) (fun q (S : Fin d × Fin p → Bool) => sgn (S q)) (coins (Fin d × Fin p)) := by
  have hev : ∀ (q : Fin d × Fin p) (f : Bool → ℝ), ∫ S, f (S q) ∂(coins (Fin d × Fin p)) = (f true + f false) / 2 := by
    intro q f
    rw [← integral_coin]
    exact integral_comp_eval (μ := fun _ : Fin d × Fin p => coin) (i := q) (f := f) (Measurable.of_discrete.aestronglyMeasurable)
  have hint : ∀ f : (Fin d × Fin p → Bool) → ℝ, Integrable f (coins (Fin d × Fin p)) := fun f => Integrable.of_finite
  refine ⟨iIndepFun_pi (X := fun _ => sgn) fun _ => Measurable.of_discrete.aemeasurable, fun q => Measurable.of_discrete, fun q => ?_, fun q => ?_, fun q => ?_⟩
  · refine ⟨fun t => hint _, fun t => ?_⟩
    rw [mgf, hev q fun b => Real.exp (t * sgn b)]
    have : (Real.exp (t * sgn true) + Real.exp (t * sgn false)) / 2 = Real.cosh t := by
      rw [Real.cosh_eq]
      simp [sgn]
    rw [this]
    simpa using Real.cosh_le_exp_half_sq t
  · rw [hev q sgn]
    simp [sgn]
  · rw [hev q fun b => sgn b ^ 2]
    simp [sgn]

lemma sign_row (block : ℕ) (seed : ℤ) (S : Fin d × Fin p → Bool) (x y : Fin d → ℝ) :
    rowDot (idealRow (signProjector block seed S) 0 x) (idealRow (signProjector block seed S) 0 y) =
      (∑ j : Fin p, colForm (fun q (S : Fin d × Fin p → Bool) => sgn (S q)) x j S * colForm (fun q (S : Fin d × Fin p → Bool) => sgn (S q)) y j S) / p := by
  show rowDot ((List.range p).map _) ((List.range p).map _) = _
  rw [rowDot_map, show ((List.range p).map fun j => idealEntry (signProjector block seed S) 0 x j * idealEntry (signProjector block seed S) 0 y j).sum =
      ∑ j ∈ Finset.range p, idealEntry (signProjector block seed S) 0 x j * idealEntry (signProjector block seed S) 0 y j from rfl, Finset.sum_range,
    Finset.sum_div]
  apply Finset.sum_congr rfl
  intro j _
  rw [signProjector_entry, signProjector_entry, div_mul_div_comm, Real.mul_self_sqrt (Nat.cast_nonneg p)]
  rfl

lemma off_iff (hp : 0 < p) (A B c ε : ℝ) : ε * A < |B / p - c| ↔ ε * (p * A) < |B - p * c| := by
  have hp' : (0 : ℝ) < p := by exact_mod_cast hp
  have : B / p - c = (B - p * c) / p := by field_simp
  rw [this, abs_div, abs_of_pos hp', lt_div_iff₀ hp', show ε * (p * A) = ε * A * p by ring]

lemma pairs_tail {Ω : Type} [MeasurableSpace Ω] {P : Measure Ω} [IsProbabilityMeasure P] {ξ : Fin d × Fin p → Ω → ℝ} (h : Entries ξ P) (hp : 0 < p) (n m : ℕ)
    (xs : Fin n → Fin d → ℝ) (ys : Fin m → Fin d → ℝ) {ε : ℝ} (h0 : 0 < ε) (h1 : ε ≤ 1) :
    P.real {ω | ∃ i j, ε * (Real.sqrt (∑ a, xs i a ^ 2) * Real.sqrt (∑ a, ys j a ^ 2)) <
      |(∑ k, colForm ξ (xs i) k ω * colForm ξ (ys j) k ω) / p - ∑ a, xs i a * ys j a|} ≤ 4 * (n * m) * Real.exp (-(p * ε ^ 2 / 8)) := by
  have hcover : {ω | ∃ i j, ε * (Real.sqrt (∑ a, xs i a ^ 2) * Real.sqrt (∑ a, ys j a ^ 2)) <
      |(∑ k, colForm ξ (xs i) k ω * colForm ξ (ys j) k ω) / p - ∑ a, xs i a * ys j a|} =
      ⋃ q : Fin n × Fin m, {ω | ε * (p * (Real.sqrt (∑ a, xs q.1 a ^ 2) * Real.sqrt (∑ a, ys q.2 a ^ 2))) <
        |(∑ k, colForm ξ (xs q.1) k ω * colForm ξ (ys q.2) k ω) - p * ∑ a, xs q.1 a * ys q.2 a|} := by
    ext ω
    simp only [Set.mem_ofPred_eq, Set.mem_iUnion, Prod.exists]
    exact exists_congr fun i => exists_congr fun j => off_iff hp _ _ _ _
  rw [hcover]
  refine (measureReal_iUnion_fintype_le _).trans ((sum_le_sum fun q _ => inner_tail h (xs q.1) (ys q.2) h0 h1).trans (le_of_eq ?_))
  simp
  ring

lemma enough_dim (n m : ℕ) (hn : 0 < n) (hm : 0 < m) (ε δ : ℝ) (h0 : 0 < ε) (hδ : 0 < δ) (hp : 8 * Real.log (4 * (n * m) / δ) / ε ^ 2 ≤ p) :
    4 * (n * m) * Real.exp (-(p * ε ^ 2 / 8)) ≤ δ := by
  have hnm : (0 : ℝ) < 4 * (n * m) := by positivity
  rw [div_le_iff₀ (by positivity)] at hp
  have h2 : Real.log (4 * (n * m) / δ) ≤ p * ε ^ 2 / 8 := by linarith
  rw [Real.log_le_iff_le_exp (by positivity), div_le_iff₀ hδ] at h2
  rw [Real.exp_neg, ← div_eq_mul_inv, div_le_iff₀ (Real.exp_pos _)]
  linarith

/-! ### C237 -/

/-- **C237** (normal). Project `n` training rows and `m` test rows with one default `normal` projector. The probability that some inner product of a projected training
row with a projected test row is off by more than `ε` times the norms is at most `4 n m exp(-p ε² / 8)`. -/
theorem C237_normal (block : ℕ) (hb : 0 < block) (seed : ℤ) (hp : 0 < p) (n m : ℕ) (xs : Fin n → Fin d → ℝ) (ys : Fin m → Fin d → ℝ) (ε : ℝ)
    (h0 : 0 < ε) (h1 : ε ≤ 1) :
    ∃ (u : (Fin d × Fin p → ℝ) → Fin n → List ℝ) (v : (Fin d × Fin p → ℝ) → Fin m → List ℝ),
      (∀ G, ∃ st0, (normalProjector block seed G).init = .ok st0 ∧ ∀ h, ¬ (p ≤ block ∧ Lost 0 h 0) →
        ((normalProjector block seed G).project ((normalProjector block seed G).run st0 h) (List.ofFn xs) 0).2 = .ok (List.ofFn (u G)) ∧
        ((normalProjector block seed G).project ((normalProjector block seed G).run st0 h) (List.ofFn ys) 0).2 = .ok (List.ofFn (v G))) ∧
      (Measure.pi fun _ => gaussianReal 0 1).real {G | ∃ i j, ε * (Real.sqrt (∑ a, xs i a ^ 2) * Real.sqrt (∑ a, ys j a ^ 2)) <
        |rowDot (u G i) (v G j) - ∑ a, xs i a * ys j a|} ≤ 4 * (n * m) * Real.exp (-(p * ε ^ 2 / 8)) := by
  refine ⟨fun G i => idealRow (normalProjector block seed G) 0 (xs i), fun G j => idealRow (normalProjector block seed G) 0 (ys j), fun G => ?_, ?_⟩
  · obtain ⟨st0, h0, hh⟩ := C28_history (normalProjector block seed G) (Or.inl rfl) hp hb
    refine ⟨st0, h0, fun h hl => ⟨?_, ?_⟩⟩
    · rw [(hh h (List.ofFn xs) 0).2 fun he => hl ((hh h (List.ofFn xs) 0).1.1 he).2, List.map_ofFn]
      rfl
    · rw [(hh h (List.ofFn ys) 0).2 fun he => hl ((hh h (List.ofFn ys) 0).1.1 he).2, List.map_ofFn]
      rfl
  · have ht := pairs_tail (gauss_entries (d := d) (p := p)) hp n m xs ys h0 h1
    refine le_trans (le_of_eq ?_) ht
    change (gauss (Fin d × Fin p)).real _ = _
    simp only [normal_row, lin_col]
    rfl

/-- **C237** (Rademacher). Among all sign matrices, the share of those that are off by more than `ε` times the norms for some pair is at most `4 n m exp(-p ε² / 8)`. -/
theorem C237_rademacher (block : ℕ) (hb : 0 < block) (seed : ℤ) (hp : 0 < p) (n m : ℕ) (xs : Fin n → Fin d → ℝ) (ys : Fin m → Fin d → ℝ) (ε : ℝ)
    (h0 : 0 < ε) (h1 : ε ≤ 1) :
    ∃ (u : (Fin d × Fin p → Bool) → Fin n → List ℝ) (v : (Fin d × Fin p → Bool) → Fin m → List ℝ),
      (∀ S, ∃ st0, (signProjector block seed S).init = .ok st0 ∧ ∀ h, ¬ (p ≤ block ∧ Lost 0 h 0) →
        ((signProjector block seed S).project ((signProjector block seed S).run st0 h) (List.ofFn xs) 0).2 = .ok (List.ofFn (u S)) ∧
        ((signProjector block seed S).project ((signProjector block seed S).run st0 h) (List.ofFn ys) 0).2 = .ok (List.ofFn (v S))) ∧
      (#{S | ∃ i j, ε * (Real.sqrt (∑ a, xs i a ^ 2) * Real.sqrt (∑ a, ys j a ^ 2)) < |rowDot (u S i) (v S j) - ∑ a, xs i a * ys j a|} : ℝ) / 2 ^ (d * p) ≤
        4 * (n * m) * Real.exp (-(p * ε ^ 2 / 8)) := by
  classical
  refine ⟨fun S i => idealRow (signProjector block seed S) 0 (xs i), fun S j => idealRow (signProjector block seed S) 0 (ys j), fun S => ?_, ?_⟩
  · obtain ⟨st0, h0, hh⟩ := C28_history (signProjector block seed S) (Or.inr (Or.inl rfl)) hp hb
    refine ⟨st0, h0, fun h hl => ⟨?_, ?_⟩⟩
    · rw [(hh h (List.ofFn xs) 0).2 fun he => hl ((hh h (List.ofFn xs) 0).1.1 he).2, List.map_ofFn]
      rfl
    · rw [(hh h (List.ofFn ys) 0).2 fun he => hl ((hh h (List.ofFn ys) 0).1.1 he).2, List.map_ofFn]
      rfl
  · have ht := pairs_tail (coin_entries (d := d) (p := p)) hp n m xs ys h0 h1
    have hc := coins_count (ι := Fin d × Fin p) {S | ∃ i j, ε * (Real.sqrt (∑ a, xs i a ^ 2) * Real.sqrt (∑ a, ys j a ^ 2)) <
      |rowDot (idealRow (signProjector block seed S) 0 (xs i)) (idealRow (signProjector block seed S) 0 (ys j)) - ∑ a, xs i a * ys j a|}
    rw [Fintype.card_prod, Fintype.card_fin, Fintype.card_fin] at hc
    rw [← hc]
    refine le_trans (le_of_eq ?_) ht
    congr 1
    ext S
    simp only [coe_filter, mem_univ, true_and, Set.mem_ofPred_eq, sign_row]

/-- **C237** (dimension, normal). With a projection dimension of at least `8 log(4 n m / δ) / ε²`, whatever the number `d` of parameters, all `n m` scores are right to
within `ε` times the norms except with probability `δ`. -/
theorem C237_dimension_normal (block : ℕ) (hb : 0 < block) (seed : ℤ) (hp : 0 < p) (n m : ℕ) (hn : 0 < n) (hm : 0 < m) (xs : Fin n → Fin d → ℝ)
    (ys : Fin m → Fin d → ℝ) (ε δ : ℝ) (h0 : 0 < ε) (h1 : ε ≤ 1) (hδ : 0 < δ) (hd : 8 * Real.log (4 * (n * m) / δ) / ε ^ 2 ≤ p) :
    ∃ (u : (Fin d × Fin p → ℝ) → Fin n → List ℝ) (v : (Fin d × Fin p → ℝ) → Fin m → List ℝ),
      (∀ G, ∃ st0, (normalProjector block seed G).init = .ok st0 ∧ ∀ h, ¬ (p ≤ block ∧ Lost 0 h 0) →
        ((normalProjector block seed G).project ((normalProjector block seed G).run st0 h) (List.ofFn xs) 0).2 = .ok (List.ofFn (u G)) ∧
        ((normalProjector block seed G).project ((normalProjector block seed G).run st0 h) (List.ofFn ys) 0).2 = .ok (List.ofFn (v G))) ∧
      (Measure.pi fun _ => gaussianReal 0 1).real {G | ∃ i j, ε * (Real.sqrt (∑ a, xs i a ^ 2) * Real.sqrt (∑ a, ys j a ^ 2)) <
        |rowDot (u G i) (v G j) - ∑ a, xs i a * ys j a|} ≤ δ := by
  obtain ⟨u, v, huv, hb⟩ := C237_normal block hb seed hp n m xs ys ε h0 h1
  exact ⟨u, v, huv, hb.trans (enough_dim n m hn hm ε δ h0 hδ hd)⟩

/-- **C237** (dimension, Rademacher). The same for the share of sign matrices. -/
theorem C237_dimension_rademacher (block : ℕ) (hb : 0 < block) (seed : ℤ) (hp : 0 < p) (n m : ℕ) (hn : 0 < n) (hm : 0 < m) (xs : Fin n → Fin d → ℝ)
    (ys : Fin m → Fin d → ℝ) (ε δ : ℝ) (h0 : 0 < ε) (h1 : ε ≤ 1) (hδ : 0 < δ) (hd : 8 * Real.log (4 * (n * m) / δ) / ε ^ 2 ≤ p) :
    ∃ (u : (Fin d × Fin p → Bool) → Fin n → List ℝ) (v : (Fin d × Fin p → Bool) → Fin m → List ℝ),
      (∀ S, ∃ st0, (signProjector block seed S).init = .ok st0 ∧ ∀ h, ¬ (p ≤ block ∧ Lost 0 h 0) →
        ((signProjector block seed S).project ((signProjector block seed S).run st0 h) (List.ofFn xs) 0).2 = .ok (List.ofFn (u S)) ∧
        ((signProjector block seed S).project ((signProjector block seed S).run st0 h) (List.ofFn ys) 0).2 = .ok (List.ofFn (v S))) ∧
      (#{S | ∃ i j, ε * (Real.sqrt (∑ a, xs i a ^ 2) * Real.sqrt (∑ a, ys j a ^ 2)) < |rowDot (u S i) (v S j) - ∑ a, xs i a * ys j a|} : ℝ) / 2 ^ (d * p) ≤ δ := by
  obtain ⟨u, v, huv, hb⟩ := C237_rademacher block hb seed hp n m xs ys ε h0 h1
  exact ⟨u, v, huv, hb.trans (enough_dim n m hn hm ε δ h0 hδ hd)⟩

/-- A thousand training rows, a hundred test rows, accuracy one half, failure probability one percent: 576 columns are enough, for any number of parameters. -/
example : 8 * Real.log (4 * ((1000 : ℕ) * (100 : ℕ)) / (1 / 100)) / (1 / 2 : ℝ) ^ 2 ≤ (576 : ℕ) := by
  have h : Real.log (4 * ((1000 : ℕ) * (100 : ℕ)) / (1 / 100)) ≤ 18 := by
    rw [Real.log_le_iff_le_exp (by norm_num)]
    have h1 : (2.7 : ℝ) ≤ Real.exp 1 := by linarith [Real.exp_one_gt_d9]
    have h2 : Real.exp 18 = Real.exp 1 ^ 18 := by rw [← Real.exp_nat_mul]; norm_num
    rw [h2]
    refine le_trans ?_ (pow_le_pow_left₀ (by norm_num) h1 18)
    norm_num
  rw [div_le_iff₀ (by norm_num)]
  norm_num at h ⊢
  linarith

end Verif.Projection
