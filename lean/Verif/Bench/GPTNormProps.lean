import Verif.Bench.GPTProps
import Mathlib.Analysis.Real.Sqrt
import Mathlib.Algebra.Order.BigOperators.Ring.Finset
import Mathlib.Algebra.Order.Chebyshev

/-!
# C174: the formulas of the nanoGPT network, its layer norm, and a bound for its logits

The specification writes the network as equations on entries of rows: sums over columns, nothing from the model but the weights.
-/

namespace Verif.GPT

open Verif

variable {h s V : ℕ}

/-- The mean of a row. -/
noncomputable def avg {d : ℕ} (x : Vec d) : ℝ := (∑ k, x k) / d

/-- The mean squared deviation of a row from its mean. -/
noncomputable def spread {d : ℕ} (x : Vec d) : ℝ := (∑ k, (x k - avg x) ^ 2) / d

/-- A row normalised with weight `w` and bias `b`. -/
noncomputable def normed {d : ℕ} (w b x : Vec d) (k : Fin d) : ℝ := b k + w k * (x k - avg x) / √(spread x + 1 / 100000)

/-- The rows after the attention of a block: the rows plus the projected heads of the normalised rows. -/
noncomputable def mid (B : Block h s) (x : ℕ → Vec (h * s)) (i : ℕ) (c : Fin (h * s)) : ℝ :=
  x i c + ((∑ k : Fin (h * s), B.attn.cProj.w c k * headOut B.attn (fun j => normed B.ln1w B.ln1b (x j)) i (k / s) (k % s)) + B.attn.cProj.b c)

/-- The rows after a block: plus the two-layer network applied to the normalised row. -/
noncomputable def after (act : ℝ → ℝ) (B : Block h s) (x : ℕ → Vec (h * s)) (i : ℕ) (c : Fin (h * s)) : ℝ :=
  mid B x i c + ((∑ k, B.proj.w c k * act ((∑ m, B.fc.w k m * normed B.ln2w B.ln2b (mid B x i) m) + B.fc.b k)) + B.proj.b c)

/-- The rows after all blocks. -/
noncomputable def stream (act : ℝ → ℝ) : List (Block h s) → (ℕ → Vec (h * s)) → ℕ → Vec (h * s)
  | [], x => x
  | B :: bs, x => stream act bs (after act B x)

/-- The rows of a sequence of tokens before the blocks: token embedding plus position embedding. -/
def embedded (net : Net h s V) (idx : List (Fin V)) (i : ℕ) (c : Fin (h * s)) : ℝ :=
  (match idx[i]? with | some t => net.wte t c | none => 0) + (match net.wpe[i]? with | some p => p c | none => 0)

theorem layerNorm_eq {d : ℕ} (w b x : Vec d) : layerNorm w b x = normed w b x := by
  funext k
  simp only [layerNorm, normed, avg, spread]
  rw [show (10 : ℝ) ^ (-5 : ℤ) = 1 / 100000 by norm_num]
  ring

theorem spread_nonneg {d : ℕ} (x : Vec d) : 0 ≤ spread x := by
  unfold spread
  exact div_nonneg (Finset.sum_nonneg fun k _ => sq_nonneg _) (Nat.cast_nonneg _)

/-- **C174** (layer norm).  Undoing weight and bias, a normalised row has mean 0 and mean square `v / (v + 1e-5)`, `v` being the mean squared deviation of
the row; adding a constant to all entries of the row changes nothing, and a constant row gives the bias. -/
theorem C174_norm {d : ℕ} (hd : 0 < d) (w b x : Vec d) :
    (∀ k, layerNorm w b x k = b k + w k * layerNorm (fun _ => 1) (fun _ => 0) x k) ∧
    ∑ k, layerNorm (fun _ => 1) (fun _ => 0) x k = 0 ∧
    (∑ k, layerNorm (fun _ => 1) (fun _ => 0) x k ^ 2) / d = spread x / (spread x + 1 / 100000) ∧
    (∀ c, layerNorm w b (fun k => x k + c) = layerNorm w b x) ∧
    (∀ c, layerNorm w b (fun _ => c) = b) := by
  have hd' : (d : ℝ) ≠ 0 := Nat.cast_ne_zero.2 hd.ne'
  have hpos : 0 < spread x + 1 / 100000 := by have := spread_nonneg x; positivity
  have havg : ∀ c, avg (fun k => x k + c) = avg x + c := by
    intro c
    unfold avg
    rw [Finset.sum_add_distrib, Finset.sum_const, Finset.card_univ, Fintype.card_fin, nsmul_eq_mul]
    field_simp
  refine ⟨fun k => ?_, ?_, ?_, fun c => ?_, fun c => ?_⟩
  · simp only [layerNorm_eq, normed]
    ring
  · simp only [layerNorm_eq, normed, zero_add, one_mul]
    rw [← Finset.sum_div, Finset.sum_sub_distrib, Finset.sum_const, Finset.card_univ, Fintype.card_fin, nsmul_eq_mul]
    unfold avg
    rw [mul_div_cancel₀ _ hd', sub_self, zero_div]
  · simp only [layerNorm_eq, normed, zero_add, one_mul, div_pow, Real.sq_sqrt hpos.le]
    rw [← Finset.sum_div, div_right_comm]
    rfl
  · simp only [layerNorm_eq]
    funext k
    simp only [normed, spread, havg, add_sub_add_right_eq_sub]
  · simp only [layerNorm_eq]
    funext k
    have : avg (fun _ : Fin d => c) = c := by
      unfold avg
      rw [Finset.sum_const, Finset.card_univ, Fintype.card_fin, nsmul_eq_mul]
      field_simp
    simp [normed, this]

/-- Entries of a normalised row are bounded, whatever the row. -/
theorem normed_bound {d : ℕ} (w b x : Vec d) (k : Fin d) : |normed w b x k| ≤ √d * |w k| + |b k| := by
  have hd : 0 < d := k.pos
  have hd' : (0 : ℝ) < d := Nat.cast_pos.2 hd
  have hpos : 0 < spread x + 1 / 100000 := by have := spread_nonneg x; positivity
  have h1 : (x k - avg x) ^ 2 ≤ d * spread x := by
    unfold spread
    rw [mul_div_cancel₀ _ hd'.ne']
    exact Finset.single_le_sum (f := fun k => (x k - avg x) ^ 2) (fun i _ => sq_nonneg _) (Finset.mem_univ k)
  have h2 : |x k - avg x| ≤ √d * √(spread x + 1 / 100000) := by
    rw [← Real.sqrt_mul (by positivity)]
    apply Real.abs_le_sqrt
    refine h1.trans ?_
    have : (0 : ℝ) ≤ d * (1 / 100000) := by positivity
    linarith
  have h3 : |(x k - avg x) / √(spread x + 1 / 100000)| ≤ √d := by
    rw [abs_div, abs_of_nonneg (Real.sqrt_nonneg _), div_le_iff₀ (Real.sqrt_pos.2 hpos)]
    exact h2
  unfold normed
  rw [mul_div_assoc]
  calc |b k + w k * ((x k - avg x) / √(spread x + 1 / 100000))|
      ≤ |b k| + |w k| * |(x k - avg x) / √(spread x + 1 / 100000)| := by
        rw [← abs_mul]; exact abs_add_le _ _
    _ ≤ |b k| + |w k| * √d := by gcongr
    _ = _ := by ring

theorem block_eq (act : ℝ → ℝ) (B : Block h s) (T : ℕ) (x : ℕ → Vec (h * s)) (hm : ∀ n, B.attn.mask = some n → T ≤ n) :
    ∃ y, B.forward act T x = .ok y ∧ ∀ i < T, y i = after act B x i := by
  obtain ⟨z, hz, he⟩ := C135_formula B.attn T (fun i => layerNorm B.ln1w B.ln1b (x i)) hm
  have hm : ∀ i < T, x i + z i = mid B x i := by
    intro i hi
    funext c
    rw [Pi.add_apply, he i hi c]
    simp only [layerNorm_eq]
    rfl
  refine ⟨fun i => (x i + z i) + B.proj.app fun k => act (B.fc.app (layerNorm B.ln2w B.ln2b (x i + z i)) k), ?_, ?_⟩
  · unfold Block.forward
    rw [hz]
    rfl
  · intro i hi
    funext c
    simp only [layerNorm_eq, hm i hi]
    rfl

theorem headOut_congr (A : Attn h s) (x y : ℕ → Vec (h * s)) (i a m : ℕ) (he : ∀ j ≤ i, x j = y j) : headOut A x i a m = headOut A y i a m := by
  have h1 : ∀ j ∈ Finset.range (i + 1), x j = y j := fun j hj => he j (by simpa [Nat.lt_succ_iff] using hj)
  unfold headOut
  rw [he i le_rfl]
  congr 1
  · exact Finset.sum_congr rfl fun j hj => by rw [h1 j hj]
  · exact Finset.sum_congr rfl fun j hj => by rw [h1 j hj]

theorem after_congr (act : ℝ → ℝ) (B : Block h s) (x y : ℕ → Vec (h * s)) (i : ℕ) (he : ∀ j ≤ i, x j = y j) : after act B x i = after act B y i := by
  have hmid : mid B x i = mid B y i := by
    funext c
    unfold mid
    rw [he i le_rfl]
    congr 2
    refine Finset.sum_congr rfl fun k _ => ?_
    rw [headOut_congr _ _ (fun j => normed B.ln1w B.ln1b (y j)) _ _ _ fun j hj => by rw [he j hj]]
  funext c
  unfold after
  rw [hmid]

theorem stream_congr (act : ℝ → ℝ) (bs : List (Block h s)) : ∀ (x y : ℕ → Vec (h * s)) (i : ℕ), (∀ j ≤ i, x j = y j) →
    stream act bs x i = stream act bs y i := by
  induction bs with
  | nil => intro x y i he; exact he i le_rfl
  | cons B bs ih =>
    intro x y i he
    exact ih _ _ i fun j hj => after_congr act B x y j fun k hk => he k (hk.trans hj)

theorem fold_eq (act : ℝ → ℝ) (bs : List (Block h s)) (T : ℕ) : ∀ (x : ℕ → Vec (h * s)), (∀ B ∈ bs, ∀ n, B.attn.mask = some n → T ≤ n) →
    ∃ y, bs.foldlM (fun x B => B.forward act T x) x = .ok y ∧ ∀ i < T, y i = stream act bs x i := by
  induction bs with
  | nil => intro x _; exact ⟨x, rfl, fun i _ => rfl⟩
  | cons B bs ih =>
    intro x hm
    obtain ⟨y, h1, h2⟩ := block_eq act B T x (hm B List.mem_cons_self)
    obtain ⟨z, h3, h4⟩ := ih y fun B hB => hm B (List.mem_cons_of_mem _ hB)
    refine ⟨z, ?_, fun i hi => ?_⟩
    · rw [List.foldlM_cons, h1]
      exact h3
    · rw [h4 i hi]
      exact stream_congr act bs _ _ i fun j hj => h2 j (by omega)

/-- **C174** (the network).  The logits at position `i` are the products of the token embeddings with the normalised row the blocks make of token plus
position embedding: each block adds its projected attention heads of the normalised rows and then its two-layer network of the normalised row. -/
theorem C174_network (act : ℝ → ℝ) (net : Net h s V) (wf : net.WF) (idx : List (Fin V)) (hT : idx.length ≤ net.blockSize) :
    ∃ l, net.logits act idx = .ok l ∧ l.length = idx.length ∧ ∀ i (hi : i < l.length) (v : Fin V),
      l[i] v = ∑ m, net.wte v m * normed net.lnw net.lnb (stream act net.blocks (embedded net idx) i) m := by
  obtain ⟨y, hy, hr⟩ := rows_ok act wf idx hT
  have hx : (fun t => ((idx[t]?).elim 0 net.wte) + net.wpe.getD t 0 : ℕ → Vec (h * s)) = embedded net idx := by
    funext t c
    unfold embedded
    rw [Pi.add_apply, List.getD_eq_getElem?_getD]
    cases idx[t]? <;> cases net.wpe[t]? <;> rfl
  obtain ⟨z, h3, h4⟩ := fold_eq act net.blocks idx.length (embedded net idx) fun B hB => mask_le wf hT B hB
  have hyz : y = z := by
    rw [← hx] at h3
    rw [hy] at h3
    exact Except.ok.inj h3
  subst hyz
  refine ⟨(List.range idx.length).map fun t => net.head (layerNorm net.lnw net.lnb (y t)), ?_, by simp, ?_⟩
  · unfold Net.logits
    rw [hr]
    rfl
  · intro i hi v
    have hi0 : i < idx.length := by simpa using hi
    simp only [List.getElem_map, List.getElem_range, Net.head, layerNorm_eq, h4 i hi0]

/-- **C174** (bounded logits).  Whatever the tokens and the blocks, the logit of a token is bounded in terms of its embedding and the last layer norm
alone. -/
theorem C174_bounded (act : ℝ → ℝ) (net : Net h s V) (wf : net.WF) (idx : List (Fin V)) (hT : idx.length ≤ net.blockSize) :
    ∃ l, net.logits act idx = .ok l ∧ ∀ x ∈ l, ∀ v,
      |x v| ≤ ∑ m, |net.wte v m| * (√(h * s : ℕ) * |net.lnw m| + |net.lnb m|) := by
  obtain ⟨l, h1, -, h2⟩ := C174_network act net wf idx hT
  refine ⟨l, h1, fun x hx v => ?_⟩
  obtain ⟨i, hi, rfl⟩ := List.getElem_of_mem hx
  rw [h2 i hi v]
  refine (Finset.abs_sum_le_sum_abs _ _).trans (Finset.sum_le_sum fun m _ => ?_)
  rw [abs_mul]
  exact mul_le_mul_of_nonneg_left (normed_bound _ _ _ m) (abs_nonneg _)

/-- The hypotheses: a network with one block, one head of size two, two tokens and block size three; a call with three tokens. -/
example : ∃ net : Net 1 2 2, net.WF ∧ net.blocks.length = 1 ∧ [0, 1, 1].length ≤ net.blockSize :=
  ⟨⟨fun v _ => (v : ℕ), [0, 0, 0], [⟨1, 0, ⟨⟨0, 0⟩, ⟨0, 0⟩, some 3⟩, 1, 0, ⟨0, 0⟩, ⟨0, 0⟩⟩], 1, 0, 3⟩,
    ⟨rfl, fun B hB => Or.inr (by rw [List.mem_singleton.1 hB])⟩, rfl, le_rfl⟩

end Verif.GPT
