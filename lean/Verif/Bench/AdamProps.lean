import Verif.Bench.AdamModel
import Mathlib.Algebra.BigOperators.Intervals
import Mathlib.Data.List.Induction
import Mathlib.Algebra.Order.BigOperators.Group.Finset
import Mathlib.Tactic.FieldSimp
import Mathlib.Tactic.Linarith
import Mathlib.Tactic.NormNum
import Mathlib.Tactic.Positivity

/-!
# C196: how far trainings with Adam and AdamW can move
-/

namespace Verif.Adam

variable {ι β : Type}

/-- What is needed of the hyper-parameters: averages with rates `0 ≤ b1 ≤ b2 < 1`, positive `eps`, non-negative learning rates. -/
structure Good (h : Hyper ι) : Prop where
  b1_nonneg : 0 ≤ h.b1
  b1_le : h.b1 ≤ h.b2
  b2_lt : h.b2 < 1
  eps_pos : 0 < h.eps
  lr_nonneg : ∀ t, 0 ≤ h.lr t

/-! ### Helper lemmas -/

/-- Invariant of the averages of one coordinate: there is an average `s` of the squares with the rate of the first average. -/
def Avg (h : Hyper ι) (m v : ℝ) (t : ℕ) : Prop := ∃ s : ℝ, 0 ≤ s ∧ m ^ 2 ≤ (1 - h.b1 ^ t) * s ∧ (1 - h.b2) * s ≤ (1 - h.b1) * v ∧ 0 ≤ v

theorem avg_step {h : Hyper ι} (hg : Good h) {m v : ℝ} {t : ℕ} (ha : Avg h m v t) (g : ℝ) :
    Avg h (h.b1 * m + (1 - h.b1) * g) (h.b2 * v + (1 - h.b2) * g ^ 2) (t + 1) := by
  obtain ⟨s, hs, h1, h2, h3⟩ := ha
  obtain ⟨g1, g2, g3, -, -⟩ := hg
  have hb1 : h.b1 < 1 := g2.trans_lt g3
  have hA : 0 ≤ 1 - h.b1 ^ t := by
    have := pow_le_one₀ (n := t) g1 hb1.le
    linarith
  refine ⟨h.b1 * s + (1 - h.b1) * g ^ 2, ?_, ?_, ?_, ?_⟩
  · have := mul_nonneg g1 hs
    have := mul_nonneg (by linarith : 0 ≤ 1 - h.b1) (sq_nonneg g)
    linarith
  · generalize hAe : 1 - h.b1 ^ t = A at *
    have e : 1 - h.b1 ^ (t + 1) = h.b1 * A + (1 - h.b1) := by rw [pow_succ, ← hAe]; ring
    rw [e]
    have h0 : 0 ≤ A * g ^ 2 + s := by have := mul_nonneg hA (sq_nonneg g); linarith
    have key : 2 * (m * g) ≤ A * g ^ 2 + s := by
      have hsq : (2 * (m * g)) ^ 2 ≤ (A * g ^ 2 + s) ^ 2 := by
        have : 4 * (m ^ 2 * g ^ 2) ≤ 4 * (A * s * g ^ 2) := by
          have := mul_le_mul_of_nonneg_right h1 (sq_nonneg g)
          linarith
        nlinarith [sq_nonneg (A * g ^ 2 - s)]
      exact (abs_le_of_sq_le_sq' hsq h0).2
    have hc : 0 ≤ h.b1 * (1 - h.b1) := mul_nonneg g1 (by linarith)
    have k1 := mul_le_mul_of_nonneg_left key hc
    have k2 := mul_le_mul_of_nonneg_left h1 (mul_nonneg g1 g1)
    nlinarith
  · have k1 := mul_le_mul_of_nonneg_left h2 g1
    have k2 : h.b1 * ((1 - h.b1) * v) ≤ h.b2 * ((1 - h.b1) * v) := mul_le_mul_of_nonneg_right g2 (mul_nonneg (by linarith) h3)
    nlinarith
  · have := mul_nonneg (g1.trans g2) h3
    have := mul_nonneg (by linarith : 0 ≤ 1 - h.b2) (sq_nonneg g)
    linarith

/-- The corrected quotient is bounded. -/
theorem quotient_bound {h : Hyper ι} (hg : Good h) {m v : ℝ} {t : ℕ} (ht : 0 < t) (ha : Avg h m v t) :
    |1 / (1 - h.b1 ^ t) * (m / (Real.sqrt v / Real.sqrt (1 - h.b2 ^ t) + h.eps))| ≤ Real.sqrt ((1 - h.b1) / (1 - h.b2)) := by
  obtain ⟨s, hs, h1, h2, h3⟩ := ha
  obtain ⟨g1, g2, g3, g4, -⟩ := hg
  have hb1 : h.b1 < 1 := g2.trans_lt g3
  have hA : 0 < 1 - h.b1 ^ t := by
    have := pow_lt_one₀ g1 hb1 ht.ne'
    linarith
  have hB : 0 < 1 - h.b2 ^ t := by
    have := pow_lt_one₀ (g1.trans g2) g3 ht.ne'
    linarith
  have hBA : 1 - h.b2 ^ t ≤ 1 - h.b1 ^ t := by
    have := pow_le_pow_left₀ g1 g2 t
    linarith
  generalize 1 - h.b1 ^ t = A at *
  generalize 1 - h.b2 ^ t = B at *
  have hc : 0 < 1 - h.b2 := by linarith
  have hR : 0 ≤ (1 - h.b1) / (1 - h.b2) := div_nonneg (by linarith) hc.le
  have hden : 0 < Real.sqrt v / Real.sqrt B + h.eps := by
    have := div_nonneg (Real.sqrt_nonneg v) (Real.sqrt_nonneg B)
    linarith
  -- the first average, corrected, against the second
  have hm : |m| / A ≤ Real.sqrt ((1 - h.b1) / (1 - h.b2)) * (Real.sqrt v / Real.sqrt B) := by
    rw [← Real.sqrt_div h3, ← Real.sqrt_mul hR]
    apply Real.le_sqrt_of_sq_le
    rw [div_pow, sq_abs]
    have hs' : s ≤ (1 - h.b1) / (1 - h.b2) * v := by
      rw [div_mul_eq_mul_div, le_div_iff₀ hc]
      linarith
    rw [div_le_iff₀ (by positivity)]
    have e1 : m ^ 2 ≤ A * ((1 - h.b1) / (1 - h.b2) * v) := h1.trans (mul_le_mul_of_nonneg_left hs' hA.le)
    have hq : 0 ≤ (1 - h.b1) / (1 - h.b2) * v := mul_nonneg hR h3
    generalize (1 - h.b1) / (1 - h.b2) = R at *
    have e2 : R * (v / B) * A ^ 2 = A * (R * v) * (A / B) := by field_simp
    rw [e2]
    have e3 : 1 ≤ A / B := by rw [le_div_iff₀ hB]; linarith
    calc m ^ 2 ≤ A * (R * v) := e1
      _ = A * (R * v) * 1 := by ring
      _ ≤ A * (R * v) * (A / B) := mul_le_mul_of_nonneg_left e3 (mul_nonneg hA.le hq)
  rw [abs_mul, abs_div, abs_div, abs_one, abs_of_pos hA, abs_of_pos hden]
  have e : 1 / A * (|m| / (Real.sqrt v / Real.sqrt B + h.eps)) = |m| / A / (Real.sqrt v / Real.sqrt B + h.eps) := by field_simp
  rw [e, div_le_iff₀ hden]
  have := mul_nonneg (Real.sqrt_nonneg ((1 - h.b1) / (1 - h.b2))) g4.le
  rw [mul_add]
  linarith

theorem run_snoc (h : Hyper ι) (grad : β → ℕ → (ι → ℝ) → ι → ℝ) (θ : ι → ℝ) (bs : List β) (b : β) :
    run h grad θ (bs ++ [b]) = step h (run h grad θ bs) (grad b (run h grad θ bs).t (run h grad θ bs).θ) := by
  simp [run, batchStep]

theorem run_t (h : Hyper ι) (grad : β → ℕ → (ι → ℝ) → ι → ℝ) (θ : ι → ℝ) (bs : List β) : (run h grad θ bs).t = bs.length := by
  induction bs using List.reverseRecOn with
  | nil => rfl
  | append_singleton bs b ih => rw [run_snoc]; simp [step, ih]

theorem run_avg {h : Hyper ι} (hg : Good h) (grad : β → ℕ → (ι → ℝ) → ι → ℝ) (θ : ι → ℝ) (bs : List β) (i : ι) :
    Avg h ((run h grad θ bs).m i) ((run h grad θ bs).v i) bs.length := by
  induction bs using List.reverseRecOn with
  | nil => exact ⟨0, le_refl _, by simp [run, St.init], by simp [run, St.init], by simp [run, St.init]⟩
  | append_singleton bs b ih =>
    rw [run_snoc, List.length_append, List.length_singleton]
    exact avg_step hg ih _

/-! ### Properties -/

/-- **C196** (one step). Whatever the losses and the steps before, apart from the weight decay a step moves no coordinate by more than the learning rate times
`√((1 - b1) / (1 - b2))`. -/
theorem C196_step {h : Hyper ι} (hg : Good h) (grad : β → ℕ → (ι → ℝ) → ι → ℝ) (θ : ι → ℝ) (bs : List β) (b : β) (i : ι) :
    |(run h grad θ (bs ++ [b])).θ i - (run h grad θ bs).θ i * (1 - h.lr bs.length * h.decay i)| ≤ h.lr bs.length * Real.sqrt ((1 - h.b1) / (1 - h.b2)) := by
  rw [run_snoc]
  have ha := avg_step hg (run_avg hg grad θ bs i) (grad b (run h grad θ bs).t (run h grad θ bs).θ i)
  have hq := quotient_bound hg (Nat.succ_pos _) ha
  simp only [step, coord, run_t] at hq ⊢
  set x := (1 : ℝ) / (1 - h.b1 ^ (bs.length + 1)) with hx
  have e : ∀ a c : ℝ, a - h.lr bs.length / (1 - h.b1 ^ (bs.length + 1)) * c - a = - (h.lr bs.length * (x * c)) := by
    intro a c
    rw [hx]
    ring
  rw [e, abs_neg, abs_mul, abs_of_nonneg (hg.lr_nonneg _)]
  exact mul_le_mul_of_nonneg_left hq (hg.lr_nonneg _)

/-- **C196** (the training). After a training over any batches every coordinate is its initial value times the product of the decay factors, up to the sum of the learning rates
times `√((1 - b1) / (1 - b2))`. -/
theorem C196_run {h : Hyper ι} (hg : Good h) (hd : ∀ t i, 0 ≤ h.lr t * h.decay i ∧ h.lr t * h.decay i ≤ 1) (grad : β → ℕ → (ι → ℝ) → ι → ℝ) (θ : ι → ℝ) (bs : List β) (i : ι) :
    |(run h grad θ bs).θ i - θ i * ∏ t ∈ Finset.range bs.length, (1 - h.lr t * h.decay i)| ≤
      (∑ t ∈ Finset.range bs.length, h.lr t) * Real.sqrt ((1 - h.b1) / (1 - h.b2)) := by
  induction bs using List.reverseRecOn with
  | nil => simp [run, St.init]
  | append_singleton bs b ih =>
    have h1 := C196_step hg grad θ bs b i
    rw [List.length_append, List.length_singleton, Finset.prod_range_succ, Finset.sum_range_succ]
    have hf : |1 - h.lr bs.length * h.decay i| ≤ 1 := by
      rw [abs_le]
      have := hd bs.length i
      constructor <;> linarith [this.1, this.2]
    have h2 : |(run h grad θ bs).θ i * (1 - h.lr bs.length * h.decay i) -
        θ i * ((∏ t ∈ Finset.range bs.length, (1 - h.lr t * h.decay i)) * (1 - h.lr bs.length * h.decay i))| ≤
        (∑ t ∈ Finset.range bs.length, h.lr t) * Real.sqrt ((1 - h.b1) / (1 - h.b2)) := by
      rw [← mul_assoc, ← sub_mul, abs_mul]
      exact (mul_le_of_le_one_right (abs_nonneg _) hf).trans ih
    have h3 := abs_add_le ((run h grad θ (bs ++ [b])).θ i - (run h grad θ bs).θ i * (1 - h.lr bs.length * h.decay i))
      ((run h grad θ bs).θ i * (1 - h.lr bs.length * h.decay i) -
        θ i * ((∏ t ∈ Finset.range bs.length, (1 - h.lr t * h.decay i)) * (1 - h.lr bs.length * h.decay i)))
    rw [sub_add_sub_cancel] at h3
    rw [add_mul]
    linarith

/-- **C196** (no gradient). A coordinate whose gradient is always zero is only decayed. -/
theorem C196_no_gradient (h : Hyper ι) (grad : β → ℕ → (ι → ℝ) → ι → ℝ) (θ : ι → ℝ) (bs : List β) (i : ι) (h0 : ∀ b ∈ bs, ∀ t θ', grad b t θ' i = 0) :
    (run h grad θ bs).θ i = θ i * ∏ t ∈ Finset.range bs.length, (1 - h.lr t * h.decay i) := by
  have key : (run h grad θ bs).m i = 0 ∧ (run h grad θ bs).θ i = θ i * ∏ t ∈ Finset.range bs.length, (1 - h.lr t * h.decay i) := by
    induction bs using List.reverseRecOn with
    | nil => simp [run, St.init]
    | append_singleton bs b ih =>
      obtain ⟨i1, i2⟩ := ih fun c hc => h0 c (by simp [hc])
      have hb := h0 b (by simp)
      rw [run_snoc]
      constructor
      · simp only [step, i1, hb]
        ring
      · simp only [step, coord, i1, hb, i2, run_t, List.length_append, List.length_singleton, Finset.prod_range_succ]
        ring
  exact key.2

/-- **C196** (first step). The first step moves a coordinate with gradient `g` by the learning rate times `g / (|g| + eps)`, whatever the rates of the averages: hardly
depending on the size of the gradient. -/
theorem C196_first {h : Hyper ι} (hg : Good h) (grad : β → ℕ → (ι → ℝ) → ι → ℝ) (θ : ι → ℝ) (b : β) (i : ι) :
    (run h grad θ [b]).θ i = θ i * (1 - h.lr 0 * h.decay i) - h.lr 0 * (grad b 0 θ i / (|grad b 0 θ i| + h.eps)) := by
  have hb1 : 1 - h.b1 ≠ 0 := by have := hg.b1_le.trans_lt hg.b2_lt; intro h'; linarith
  have hb2 : 0 < 1 - h.b2 := by linarith [hg.b2_lt]
  simp only [run, List.foldl_cons, List.foldl_nil, batchStep, step, coord, St.init, mul_zero, zero_add, pow_one]
  generalize grad b 0 θ i = g
  rw [Real.sqrt_mul hb2.le, Real.sqrt_sq_eq_abs, mul_div_cancel_left₀ _ (Real.sqrt_pos.2 hb2).ne']
  congr 1
  have he : |g| + h.eps ≠ 0 := by have := abs_nonneg g; have := hg.eps_pos; positivity
  field_simp

/-- **C196** (scale of the loss). Multiplying all losses and `eps` by a positive number changes nothing. -/
theorem C196_scale (h : Hyper ι) (c : ℝ) (hc : 0 < c) (grad : β → ℕ → (ι → ℝ) → ι → ℝ) (θ : ι → ℝ) (bs : List β) :
    (run { h with eps := c * h.eps } (fun b t θ' i => c * grad b t θ' i) θ bs).θ = (run h grad θ bs).θ := by
  have key : (run { h with eps := c * h.eps } (fun b t θ' i => c * grad b t θ' i) θ bs).θ = (run h grad θ bs).θ ∧
      (∀ i, (run { h with eps := c * h.eps } (fun b t θ' i => c * grad b t θ' i) θ bs).m i = c * (run h grad θ bs).m i) ∧
      ∀ i, (run { h with eps := c * h.eps } (fun b t θ' i => c * grad b t θ' i) θ bs).v i = c ^ 2 * (run h grad θ bs).v i := by
    induction bs using List.reverseRecOn with
    | nil => simp [run, St.init]
    | append_singleton bs b ih =>
      obtain ⟨i1, i2, i3⟩ := ih
      simp only [run_snoc]
      refine ⟨?_, fun i => ?_, fun i => ?_⟩
      · funext i
        simp only [step, coord, i1, i2, i3, run_t]
        generalize grad b bs.length (run h grad θ bs).θ i = g
        have e1 : h.b1 * (c * (run h grad θ bs).m i) + (1 - h.b1) * (c * g) = c * (h.b1 * (run h grad θ bs).m i + (1 - h.b1) * g) := by ring
        have e2 : h.b2 * (c ^ 2 * (run h grad θ bs).v i) + (1 - h.b2) * (c * g) ^ 2 = c ^ 2 * (h.b2 * (run h grad θ bs).v i + (1 - h.b2) * g ^ 2) := by ring
        rw [e1, e2, Real.sqrt_mul (sq_nonneg c), Real.sqrt_sq hc.le, mul_div_assoc c (Real.sqrt _), ← mul_add,
          mul_div_mul_left _ _ hc.ne']
      · simp only [step, i1, i2, run_t]
        ring
      · simp only [step, i1, i3, run_t]
        ring
  exact key.1

theorem flatten_replicate_length (n : ℕ) (l : List β) : (List.replicate n l).flatten.length = n * l.length := by simp

theorem wikitext_good (ι : Type) : Good (wikitextHyper ι) := by
  constructor <;> norm_num [wikitextHyper]

theorem maestro_good (ι : Type) : Good (maestroHyper ι) := by
  constructor <;> norm_num [maestroHyper]

/-- **C196** (GPT-2 on WikiText-2). Whatever the data, a training over `epochs` epochs of `n` batches leaves every parameter within `epochs · n · 0.0005` of the initial value
times `0.9999995 ^ (epochs · n)`; two trainings of the same length from the same parameters differ by at most twice that in every parameter. -/
theorem C196_wikitext (grad : β → ℕ → (ι → ℝ) → ι → ℝ) (θ : ι → ℝ) (epochs : ℕ) (loader : List β) (i : ι) :
    |trainWikitext grad θ epochs loader i - θ i * 0.9999995 ^ (epochs * loader.length)| ≤ (epochs * loader.length : ℕ) * 0.0005 ∧
    ∀ (grad' : β → ℕ → (ι → ℝ) → ι → ℝ) (loader' : List β), loader'.length = loader.length →
      |trainWikitext grad θ epochs loader i - trainWikitext grad' θ epochs loader' i| ≤ (epochs * loader.length : ℕ) * 0.001 := by
  have hs : Real.sqrt ((1 - (wikitextHyper ι).b1) / (1 - (wikitextHyper ι).b2)) = 10 := by
    rw [show (1 - (wikitextHyper ι).b1) / (1 - (wikitextHyper ι).b2) = 10 ^ 2 by norm_num [wikitextHyper]]
    exact Real.sqrt_sq (by norm_num)
  have key : ∀ (grad : β → ℕ → (ι → ℝ) → ι → ℝ) (l : List β), |trainWikitext grad θ epochs l i - θ i * 0.9999995 ^ (epochs * l.length)| ≤ (epochs * l.length : ℕ) * 0.0005 := by
    intro grad l
    have h := C196_run (wikitext_good ι) (fun t i => by norm_num [wikitextHyper]) grad θ ((List.replicate epochs l).flatten) i
    rw [hs, flatten_replicate_length] at h
    have e1 : (∏ t ∈ Finset.range (epochs * l.length), (1 - (wikitextHyper ι).lr t * (wikitextHyper ι).decay i)) = 0.9999995 ^ (epochs * l.length) := by
      have : ∀ t ∈ Finset.range (epochs * l.length), (1 - (wikitextHyper ι).lr t * (wikitextHyper ι).decay i) = 0.9999995 := fun t _ => by norm_num [wikitextHyper]
      rw [Finset.prod_congr rfl this, Finset.prod_const, Finset.card_range]
    have e2 : (∑ t ∈ Finset.range (epochs * l.length), (wikitextHyper ι).lr t) = (epochs * l.length : ℕ) * 5e-5 := by
      simp [wikitextHyper]
    rw [e1, e2] at h
    refine h.trans (le_of_eq ?_)
    ring
  refine ⟨key grad loader, fun grad' loader' hl => ?_⟩
  have h1 := key grad loader
  have h2 := key grad' loader'
  rw [hl] at h2
  have h3 := abs_sub_le (trainWikitext grad θ epochs loader i) (θ i * 0.9999995 ^ (epochs * loader.length)) (trainWikitext grad' θ epochs loader' i)
  rw [abs_sub_comm (θ i * _)] at h3
  linarith

/-- **C196** (MusicTransformer). Whatever the data, the training leaves every parameter within `epochs · n · 0.0001 · √5` of its initial value. -/
theorem C196_maestro (grad : β → ℕ → (ι → ℝ) → ι → ℝ) (θ : ι → ℝ) (epochs : ℕ) (loader : List β) (i : ι) :
    |trainMaestro grad θ epochs loader i - θ i| ≤ (epochs * loader.length : ℕ) * 0.0001 * Real.sqrt 5 := by
  have h := C196_run (maestro_good ι) (fun t i => by norm_num [maestroHyper]) grad θ ((List.replicate epochs loader).flatten) i
  rw [show (1 - (maestroHyper ι).b1) / (1 - (maestroHyper ι).b2) = 5 by norm_num [maestroHyper], flatten_replicate_length] at h
  simpa [maestroHyper, trainMaestro, show (1e-4 : ℝ) = 0.0001 by norm_num] using h

/-- **C196** (nanoGPT). Vectors (biases, layer norms) are not decayed: with learning rates up to `L` and default averages they end within `L · √2` per step of their initial
value, whatever the data; the same holds around the decayed initial value for the other parameters. -/
theorem C196_nano (axes : ι → ℕ) (lr : ℕ → ℝ) (L : ℝ) (hlr : ∀ t, 0 ≤ lr t ∧ lr t ≤ L) (hL : L ≤ 10) (grad : β → ℕ → (ι → ℝ) → ι → ℝ) (θ : ι → ℝ) (bs : List β) (i : ι) :
    (axes i < 2 → |(run (nanoHyper axes lr 0.1 0.9 0.95) grad θ bs).θ i - θ i| ≤ bs.length * L * Real.sqrt 2) ∧
    (2 ≤ axes i → |(run (nanoHyper axes lr 0.1 0.9 0.95) grad θ bs).θ i - θ i * ∏ t ∈ Finset.range bs.length, (1 - lr t * 0.1)| ≤ bs.length * L * Real.sqrt 2) := by
  have hg : Good (nanoHyper axes lr 0.1 0.9 0.95) := by
    constructor <;> norm_num [nanoHyper]
    exact fun t => (hlr t).1
  have h := C196_run hg (fun t i => by
    simp only [nanoHyper]
    have := hlr t
    split
    · constructor <;> nlinarith
    · norm_num) grad θ bs i
  have hs : (∑ t ∈ Finset.range bs.length, lr t) ≤ bs.length * L := by
    calc (∑ t ∈ Finset.range bs.length, lr t) ≤ ∑ _t ∈ Finset.range bs.length, L := Finset.sum_le_sum fun t _ => (hlr t).2
      _ = bs.length * L := by simp
  rw [show (1 - (nanoHyper axes lr 0.1 0.9 0.95).b1) / (1 - (nanoHyper axes lr 0.1 0.9 0.95).b2) = 2 by norm_num [nanoHyper]] at h
  have h' := h.trans (mul_le_mul_of_nonneg_right hs (Real.sqrt_nonneg 2))
  constructor
  · intro ha
    simpa [nanoHyper, not_le.2 ha] using h'
  · intro ha
    simpa [nanoHyper, ha] using h'

/-- The bound for one step is reached up to `eps`: a gradient of 1000 and one of 1/1000 give nearly the same first step. -/
example (θ : Unit → ℝ) : (run (maestroHyper Unit) (fun b _ _ _ => b) θ [(1000 : ℝ)]).θ () = θ () - 1e-4 * (1000 / (1000 + 10e-9)) := by
  rw [C196_first (maestro_good Unit)]
  norm_num [maestroHyper]

end Verif.Adam
