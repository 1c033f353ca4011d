import Mathlib.Tactic.Ring
import Mathlib.Tactic.NormNum
import Mathlib.Data.Rat.Defs
import Mathlib.Data.Int.Cast.Lemmas
import Mathlib.Algebra.Ring.Rat
import Verif.Bench.Skew

/-!
# C76: relative attention
-/

namespace Verif.Skew

variable {K : Type} [CommRing K]

/-- The reshape of a masked and padded square matrix. -/
theorem swap_entry {S : ℕ} (f : ℕ → ℕ → K) {i j : ℕ} (hi : i < S) (hj : j < S) :
    (dropRow (reshapeSwap (padLeft ⟨S, S, fun i j => (if S - 1 - i ≤ j then 1 else 0) * f i j⟩))).at' i j =
      if j ≤ i then f i (S - 1 - (i - j)) else 0 := by
  unfold dropRow reshapeSwap padLeft
  simp only
  by_cases h : j ≤ i
  · have e : (i + 1) * S + j = i * (S + 1) + (S - (i - j)) := by
      rw [Nat.add_mul, Nat.mul_add]; omega
    have hd : ((i + 1) * S + j) / (S + 1) = i := by
      rw [e, Nat.mul_comm, Nat.mul_add_div (by omega), Nat.div_eq_of_lt (by omega), Nat.add_zero]
    have hm : ((i + 1) * S + j) % (S + 1) = S - (i - j) := by
      rw [e, Nat.mul_comm, Nat.mul_add_mod, Nat.mod_eq_of_lt (by omega)]
    rw [hd, hm, if_pos h, if_neg (by omega), if_pos (by omega), one_mul,
      show S - (i - j) - 1 = S - 1 - (i - j) by omega]
  · have e : (i + 1) * S + j = (i + 1) * (S + 1) + (j - (i + 1)) := by
      rw [Nat.add_mul, Nat.add_mul i 1 (S + 1), Nat.mul_add]; omega
    have hd : ((i + 1) * S + j) / (S + 1) = i + 1 := by
      rw [e, Nat.mul_comm, Nat.mul_add_div (by omega), Nat.div_eq_of_lt (by omega), Nat.add_zero]
    have hm : ((i + 1) * S + j) % (S + 1) = j - (i + 1) := by
      rw [e, Nat.mul_comm, Nat.mul_add_mod, Nat.mod_eq_of_lt (by omega)]
    rw [hd, hm, if_neg h]
    split_ifs <;> first | rfl | omega | exact zero_mul _

/-- C76: the skewing of a square matrix of scores puts at `(i, j)`, for `j ≤ i`, the score of query `i` in column
`S - 1 - (i - j)`, and zero elsewhere. -/
theorem C76_skew (qe : Grid K) (h : qe.cols = qe.rows) :
    ∃ g, skew qe = .ok g ∧ g.rows = qe.rows ∧ g.cols = qe.rows ∧
      ∀ i < qe.rows, ∀ j < qe.rows, g.at' i j = if j ≤ i then qe.at' i (qe.rows - 1 - (i - j)) else 0 := by
  refine ⟨_, ?_, ?_, ?_, fun i hi j hj => swap_entry qe.at' hi hj⟩
  · unfold skew mulBroadcast
    rw [if_pos (by rw [h]; rfl)]
    rfl
  · rfl
  · rfl

/-- C76: the logits of self-attention over `S` positions, with at least `S` relative embeddings: position `i`
gets for a position `j ≤ i` the product with the key and the product with the embedding of the distance `i - j`,
counted from the end of the table; the entries above the diagonal get the product with the key only. -/
theorem C76_logits {q k Er : Grid K} (hk : k.rows = q.rows) (hE : q.rows ≤ Er.rows) :
    ∃ g, logits q k Er = .ok g ∧ g.rows = q.rows ∧ g.cols = q.rows ∧ ∀ i < q.rows, ∀ j < q.rows,
      g.at' i j = (∑ c ∈ Finset.range q.cols, q.at' i c * k.at' j c) +
        if j ≤ i then ∑ c ∈ Finset.range q.cols, q.at' i c * Er.at' (Er.rows - 1 - (i - j)) c else 0 := by
  have hv : (dot q (validEmbedding Er q.rows)).cols = (dot q (validEmbedding Er q.rows)).rows := by
    simp only [dot, validEmbedding]; omega
  obtain ⟨g, hg, h1, h2, h3⟩ := C76_skew _ hv
  change g.rows = q.rows at h1
  change g.cols = q.rows at h2
  refine ⟨⟨q.rows, k.rows, fun i j => (dot q k).at' i j +
    g.at' (if g.rows = q.rows then i else 0) (if g.cols = k.rows then j else 0)⟩, ?_, rfl, hk, ?_⟩
  · unfold logits
    rw [hg]
    simp only [bind, Except.bind]
    unfold addInPlace
    rw [if_pos ⟨Or.inl h1, Or.inl (by rw [h2]; exact hk.symm)⟩]
    rfl
  · intro i hi j hj
    simp only [if_pos h1, if_pos (h2.trans hk.symm)]
    rw [h3 i hi j hj]
    congr 1
    by_cases h : j ≤ i
    · rw [if_pos h, if_pos h]
      simp only [dot, validEmbedding]
      refine Finset.sum_congr rfl fun c _ => ?_
      congr 2
      omega
    · rw [if_neg h, if_neg h]

/-- C76: the logit of two positions does not depend on how long the sequence is. -/
theorem C76_prefix {q k q' k' Er g g' : Grid K} (hk : k.rows = q.rows) (hk' : k'.rows = q'.rows)
    (hE : q.rows ≤ Er.rows) (hE' : q'.rows ≤ Er.rows) (hc : q.cols = q'.cols)
    (h : logits q k Er = .ok g) (h' : logits q' k' Er = .ok g') {i j : ℕ} (hi : i < q.rows) (hi' : i < q'.rows)
    (hj : j < q.rows) (hj' : j < q'.rows) (hq : ∀ c, q.at' i c = q'.at' i c) (hkk : ∀ c, k.at' j c = k'.at' j c) :
    g.at' i j = g'.at' i j := by
  obtain ⟨_, h1, _, _, e1⟩ := C76_logits hk hE
  obtain ⟨_, h2, _, _, e2⟩ := C76_logits hk' hE'
  rw [h] at h1; rw [h'] at h2
  cases h1; cases h2
  rw [e1 i hi j hj, e2 i hi' j hj', hc]
  simp only [hq, hkk]

/-- C76: for self-attention over `S` positions the logits are defined exactly if there are at least `S` relative
embeddings or just one (which then serves all distances). -/
theorem C76_defined {q k Er : Grid K} (hk : k.rows = q.rows) :
    (∃ g, logits q k Er = .ok g) ↔ q.rows ≤ Er.rows ∨ Er.rows = 1 := by
  constructor
  · rintro ⟨g, hg⟩
    by_contra hcon
    push Not at hcon
    obtain ⟨hlt, hne⟩ := hcon
    unfold logits skew mulBroadcast at hg
    have e1 : (mask (dot q (validEmbedding Er q.rows)).rows : Grid K).cols = q.rows := rfl
    have e2 : (dot q (validEmbedding Er q.rows)).cols = Er.rows := by
      simp only [dot, validEmbedding]; omega
    rw [e1, e2, if_neg (by omega)] at hg
    by_cases h1 : q.rows = 1
    · have h0 : Er.rows = 0 := by omega
      rw [if_pos h1] at hg
      simp only [bind, Except.bind, pure, Except.pure] at hg
      unfold addInPlace dropRow reshapeSwap padLeft at hg
      simp only [h0, dot] at hg
      rw [if_neg (by omega)] at hg
      cases hg
    · rw [if_neg h1, if_neg hne] at hg
      cases hg
  · rintro (h | h)
    · obtain ⟨g, hg, _⟩ := C76_logits hk h
      exact ⟨g, hg⟩
    · by_cases h1 : q.rows ≤ Er.rows
      · obtain ⟨g, hg, _⟩ := C76_logits hk h1
        exact ⟨g, hg⟩
      · have e1 : (mask (dot q (validEmbedding Er q.rows)).rows : Grid K).cols = q.rows := rfl
        have e2 : (dot q (validEmbedding Er q.rows)).cols = Er.rows := by
          simp only [dot, validEmbedding]; omega
        unfold logits skew mulBroadcast
        rw [e1, e2, if_neg (by omega), if_neg (by omega), if_pos h]
        simp only [bind, Except.bind, pure, Except.pure]
        unfold addInPlace
        rw [if_pos ⟨Or.inl (by simp [dropRow, reshapeSwap, padLeft, mask, dot]),
          Or.inl (by simp [dropRow, reshapeSwap, padLeft, mask, dot, hk])⟩]
        exact ⟨_, rfl⟩

/-- Three positions, four embeddings. -/
example : ∃ g, logits (⟨3, 1, fun i _ => i + 1⟩ : Grid ℚ) ⟨3, 1, fun _ _ => 0⟩ ⟨4, 1, fun m _ => m⟩ = .ok g ∧
    g.at' 2 0 = 3 ∧ g.at' 2 2 = 9 ∧ g.at' 0 1 = 0 := by
  obtain ⟨g, hg, _, _, h⟩ := C76_logits (q := (⟨3, 1, fun i _ => i + 1⟩ : Grid ℚ)) (k := ⟨3, 1, fun _ _ => 0⟩)
    (Er := ⟨4, 1, fun m _ => m⟩) rfl (by decide)
  refine ⟨g, hg, ?_, ?_, ?_⟩
  · rw [h 2 (by decide) 0 (by decide)]; norm_num
  · rw [h 2 (by decide) 2 (by decide)]; norm_num
  · rw [h 0 (by decide) 1 (by decide)]; norm_num

end Verif.Skew
