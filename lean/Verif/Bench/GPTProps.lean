import Verif.Bench.GPTModel
import Mathlib.Algebra.BigOperators.Field
import Mathlib.Algebra.Order.BigOperators.Ring.Finset
import Mathlib.Tactic.NormNum
import Mathlib.Tactic.FieldSimp

/-! # C135: the language model sees only the past -/

namespace Verif.GPT

open Verif

variable {h s V : ℕ}

/-! ### Specification -/

/-- A network as `GPT.__init__` builds it and `crop_block_size` keeps it: one position embedding per position, and masks, where there are
any, of the same size. -/
def Net.WF (net : Net h s V) : Prop :=
  net.wpe.length = net.blockSize ∧ ∀ B ∈ net.blocks, B.attn.mask = none ∨ B.attn.mask = some net.blockSize

/-- The probability of the token `v` after the tokens `pre`: the softmax of the logits returned for `pre` without targets. -/
noncomputable def Net.prob (act : ℝ → ℝ) (net : Net h s V) (pre : List (Fin V)) (v : Fin V) : ℝ :=
  match net.infer act pre with
  | .ok l => Real.exp (l v) / ∑ w, Real.exp (l w)
  | .error _ => 0

/-- The predictions a batch asks for: at each position with a target, the tokens up to there and the target. -/
def asked (batch : List (List (Fin V) × List (Option (Fin V)))) : List (List (Fin V) × Fin V) :=
  batch.flatMap fun b => (List.range b.1.length).filterMap fun i =>
    (b.2[i]?.join).map fun t => (b.1.take (i + 1), t)

/-! ### Helper lemmas -/

theorem weight_eq (A : Attn h s) (T : ℕ) (x : ℕ → Vec (h * s)) (a : Fin h) (i j : ℕ) :
    A.weight T x a i j = if j ≤ i then Real.exp (A.score (x i) (x j) a) /
      ∑ m ∈ (Finset.range T).filter (· ≤ i), Real.exp (A.score (x i) (x m) a) else 0 := by
  unfold Attn.weight
  cases A.mask with
  | none => rfl
  | some n =>
    simp only [softmax]
    have : ∑ m ∈ Finset.range T, (if m ≤ i then some (A.score (x i) (x m) a) else none).elim 0 Real.exp =
        ∑ m ∈ (Finset.range T).filter (· ≤ i), Real.exp (A.score (x i) (x m) a) := by
      rw [Finset.sum_filter]
      apply Finset.sum_congr rfl
      intro m _
      split_ifs <;> rfl
    rw [this]
    split_ifs <;> simp

theorem filter_le {T i : ℕ} (hi : i < T) : (Finset.range T).filter (· ≤ i) = Finset.range (i + 1) := by
  ext m
  simp only [Finset.mem_filter, Finset.mem_range]
  omega

theorem attend_eq (A : Attn h s) (T : ℕ) (x : ℕ → Vec (h * s)) (a : Fin h) (i : ℕ) (hi : i < T) (F : ℕ → ℝ) :
    ∑ j ∈ Finset.range T, A.weight T x a i j * F j =
      ∑ j ∈ Finset.range (i + 1), Real.exp (A.score (x i) (x j) a) /
        (∑ m ∈ Finset.range (i + 1), Real.exp (A.score (x i) (x m) a)) * F j := by
  simp only [weight_eq, filter_le hi]
  generalize ∑ m ∈ Finset.range (i + 1), Real.exp (A.score (x i) (x m) a) = Z
  rw [← filter_le hi, Finset.sum_filter]
  apply Finset.sum_congr rfl
  intro j _
  split_ifs <;> simp

theorem attn_forward_ok (A : Attn h s) (T : ℕ) (x : ℕ → Vec (h * s)) (hm : ∀ n, A.mask = some n → T ≤ n) :
    A.forward T x = .ok fun i => A.cProj.app fun c =>
      ∑ j ∈ Finset.range T, A.weight T x (finProdFinEquiv.symm c).1 i j *
        A.part 2 (x j) (finProdFinEquiv.symm c).1 (finProdFinEquiv.symm c).2 := by
  unfold Attn.forward
  rw [if_neg]
  cases hA : A.mask with
  | none => simp
  | some n => simp [hm n hA]

theorem block_forward_ok (act : ℝ → ℝ) (B : Block h s) (T : ℕ) (x : ℕ → Vec (h * s))
    (hm : ∀ n, B.attn.mask = some n → T ≤ n) : ∃ y, B.forward act T x = .ok y := by
  unfold Block.forward
  rw [attn_forward_ok B.attn T _ hm]
  exact ⟨_, rfl⟩

theorem block_causal (act : ℝ → ℝ) (B : Block h s) (T T' : ℕ) (x x' y y' : ℕ → Vec (h * s)) (i : ℕ) (hi : i < T)
    (hi' : i < T') (hm : ∀ n, B.attn.mask = some n → T ≤ n) (hm' : ∀ n, B.attn.mask = some n → T' ≤ n)
    (hx : ∀ t ≤ i, x t = x' t) (hy : B.forward act T x = .ok y) (hy' : B.forward act T' x' = .ok y') : ∀ t ≤ i, y t = y' t := by
  unfold Block.forward at hy hy'
  rw [attn_forward_ok B.attn T _ hm] at hy
  rw [attn_forward_ok B.attn T' _ hm'] at hy'
  cases hy
  cases hy'
  intro t ht
  have e : ∀ c : Fin (h * s), ∑ j ∈ Finset.range T, B.attn.weight T (fun i => layerNorm B.ln1w B.ln1b (x i))
        (finProdFinEquiv.symm c).1 t j *
        B.attn.part 2 (layerNorm B.ln1w B.ln1b (x j)) (finProdFinEquiv.symm c).1 (finProdFinEquiv.symm c).2 =
      ∑ j ∈ Finset.range T', B.attn.weight T' (fun i => layerNorm B.ln1w B.ln1b (x' i)) (finProdFinEquiv.symm c).1 t j *
        B.attn.part 2 (layerNorm B.ln1w B.ln1b (x' j)) (finProdFinEquiv.symm c).1 (finProdFinEquiv.symm c).2 := by
    intro c
    rw [attend_eq _ T _ _ t (by omega) fun j => B.attn.part 2 (layerNorm B.ln1w B.ln1b (x j)) (finProdFinEquiv.symm c).1
        (finProdFinEquiv.symm c).2,
      attend_eq _ T' _ _ t (by omega) fun j => B.attn.part 2 (layerNorm B.ln1w B.ln1b (x' j)) (finProdFinEquiv.symm c).1
        (finProdFinEquiv.symm c).2]
    have hsum : ∑ m ∈ Finset.range (t + 1), Real.exp (B.attn.score (layerNorm B.ln1w B.ln1b (x t))
          (layerNorm B.ln1w B.ln1b (x m)) (finProdFinEquiv.symm c).1) =
        ∑ m ∈ Finset.range (t + 1), Real.exp (B.attn.score (layerNorm B.ln1w B.ln1b (x' t))
          (layerNorm B.ln1w B.ln1b (x' m)) (finProdFinEquiv.symm c).1) := by
      apply Finset.sum_congr rfl
      intro m hm
      rw [Finset.mem_range] at hm
      rw [hx t ht, hx m (by omega)]
    rw [hsum]
    apply Finset.sum_congr rfl
    intro m hm
    rw [Finset.mem_range] at hm
    rw [hx t ht, hx m (by omega)]
  simp only [e, hx t ht]

theorem fold_ok (act : ℝ → ℝ) (bs : List (Block h s)) (T : ℕ) (x : ℕ → Vec (h * s))
    (hm : ∀ B ∈ bs, ∀ n, B.attn.mask = some n → T ≤ n) :
    ∃ y, bs.foldlM (fun x B => B.forward act T x) x = .ok y := by
  induction bs generalizing x with
  | nil => exact ⟨x, rfl⟩
  | cons B bs ih =>
    obtain ⟨y, hy⟩ := block_forward_ok act B T x (hm B List.mem_cons_self)
    obtain ⟨z, hz⟩ := ih y fun B' hB => hm B' (List.mem_cons_of_mem _ hB)
    refine ⟨z, ?_⟩
    rw [List.foldlM_cons, hy]
    exact hz

theorem fold_causal (act : ℝ → ℝ) (bs : List (Block h s)) (T T' : ℕ) (x x' y y' : ℕ → Vec (h * s)) (i : ℕ) (hi : i < T)
    (hi' : i < T') (hm : ∀ B ∈ bs, ∀ n, B.attn.mask = some n → T ≤ n) (hm' : ∀ B ∈ bs, ∀ n, B.attn.mask = some n → T' ≤ n)
    (hx : ∀ t ≤ i, x t = x' t) (hy : bs.foldlM (fun x B => B.forward act T x) x = .ok y)
    (hy' : bs.foldlM (fun x B => B.forward act T' x) x' = .ok y') : ∀ t ≤ i, y t = y' t := by
  induction bs generalizing x x' with
  | nil => cases hy; cases hy'; exact hx
  | cons B bs ih =>
    obtain ⟨z, hz⟩ := block_forward_ok act B T x (hm B List.mem_cons_self)
    obtain ⟨z', hz'⟩ := block_forward_ok act B T' x' (hm' B List.mem_cons_self)
    rw [List.foldlM_cons, hz] at hy
    rw [List.foldlM_cons, hz'] at hy'
    exact ih z z' (fun B' hB => hm B' (List.mem_cons_of_mem _ hB)) (fun B' hB => hm' B' (List.mem_cons_of_mem _ hB))
      (block_causal act B T T' x x' z z' i hi hi' (hm B List.mem_cons_self) (hm' B List.mem_cons_self) hx hz hz') hy hy'

theorem mask_le {net : Net h s V} (wf : net.WF) {T : ℕ} (hT : T ≤ net.blockSize) :
    ∀ B ∈ net.blocks, ∀ n, B.attn.mask = some n → T ≤ n := by
  intro B hB n hn
  rcases wf.2 B hB with h1 | h1
  · rw [h1] at hn; cases hn
  · rw [h1] at hn; cases hn; exact hT

theorem rows_ok (act : ℝ → ℝ) {net : Net h s V} (wf : net.WF) (idx : List (Fin V)) (hT : idx.length ≤ net.blockSize) :
    ∃ y, net.blocks.foldlM (fun x B => B.forward act idx.length x)
        (fun t => ((idx[t]?).elim 0 net.wte) + net.wpe.getD t 0) = .ok y ∧
      net.rows act idx = .ok fun t => layerNorm net.lnw net.lnb (y t) := by
  obtain ⟨y, hy⟩ := fold_ok act net.blocks idx.length (fun t => ((idx[t]?).elim 0 net.wte) + net.wpe.getD t 0)
    (mask_le wf hT)
  refine ⟨y, hy, ?_⟩
  unfold Net.rows
  rw [if_neg (by omega), if_neg (by rw [wf.1]; omega)]
  simp only [hy]
  rfl

theorem rows_causal (act : ℝ → ℝ) {net : Net h s V} (wf : net.WF) (idx idx' : List (Fin V)) (hT : idx.length ≤ net.blockSize)
    (hT' : idx'.length ≤ net.blockSize) (i : ℕ) (hi : i < idx.length) (hi' : i < idx'.length)
    (hp : idx.take (i + 1) = idx'.take (i + 1)) :
    ∃ r r', net.rows act idx = .ok r ∧ net.rows act idx' = .ok r' ∧ r i = r' i := by
  obtain ⟨y, hy, hr⟩ := rows_ok act wf idx hT
  obtain ⟨y', hy', hr'⟩ := rows_ok act wf idx' hT'
  refine ⟨_, _, hr, hr', ?_⟩
  have := fold_causal act net.blocks idx.length idx'.length _ _ y y' i hi hi' (mask_le wf hT) (mask_le wf hT') (by
    intro t ht
    have : idx[t]? = idx'[t]? := by
      have h1 : (idx.take (i + 1))[t]? = (idx'.take (i + 1))[t]? := by rw [hp]
      rwa [List.getElem?_take_of_lt (by omega), List.getElem?_take_of_lt (by omega)] at h1
    simp only [this]) hy hy' i (le_refl i)
  simp only [this]

/-! ### C135 -/

/-- **C135** (when the network raises).  Sequences longer than the block size raise an `AssertionError`; nothing else raises, except that
the empty sequence has no last position. -/
theorem C135_errors (act : ℝ → ℝ) (net : Net h s V) (wf : net.WF) (idx : List (Fin V)) :
    (net.blockSize < idx.length → net.logits act idx = .error .assertionError ∧ net.infer act idx = .error .assertionError) ∧
    (idx.length ≤ net.blockSize → ∃ l, net.logits act idx = .ok l ∧ l.length = idx.length) ∧
    (idx.length ≤ net.blockSize → idx ≠ [] → ∃ l, net.infer act idx = .ok l) ∧ net.infer act [] = .error .indexError := by
  refine ⟨?_, ?_, ?_, ?_⟩
  · intro hT
    have : net.rows act idx = .error .assertionError := by
      unfold Net.rows
      rw [if_pos hT]
    unfold Net.logits Net.infer
    rw [this]
    exact ⟨rfl, rfl⟩
  · intro hT
    obtain ⟨y, -, hr⟩ := rows_ok act wf idx hT
    unfold Net.logits
    rw [hr]
    exact ⟨_, rfl, by simp⟩
  · intro hT hne
    obtain ⟨y, -, hr⟩ := rows_ok act wf idx hT
    unfold Net.infer
    rw [hr]
    simp only [bind, Except.bind, hne, if_false]
    exact ⟨_, rfl⟩
  · obtain ⟨y, -, hr⟩ := rows_ok act wf ([] : List (Fin V)) (by simp)
    unfold Net.infer
    rw [hr]
    rfl

/-- **C135** (causality).  The logits at position `i` depend on the tokens up to position `i` only, not on later tokens nor on the length
of the sequence. -/
theorem C135_causal (act : ℝ → ℝ) (net : Net h s V) (wf : net.WF) (idx idx' : List (Fin V)) (hT : idx.length ≤ net.blockSize)
    (hT' : idx'.length ≤ net.blockSize) (i : ℕ) (hi : i < idx.length) (hi' : i < idx'.length)
    (hp : idx.take (i + 1) = idx'.take (i + 1)) :
    ∃ l l', net.logits act idx = .ok l ∧ net.logits act idx' = .ok l' ∧ l[i]? = l'[i]? ∧ l[i]?.isSome := by
  obtain ⟨r, r', hr, hr', he⟩ := rows_causal act wf idx idx' hT hT' i hi hi' hp
  refine ⟨(List.range idx.length).map fun t => net.head (r t), (List.range idx'.length).map fun t => net.head (r' t), ?_, ?_, ?_, ?_⟩
  · unfold Net.logits
    rw [hr]
    rfl
  · unfold Net.logits
    rw [hr']
    rfl
  · rw [List.getElem?_map, List.getElem?_map, List.getElem?_range hi, List.getElem?_range hi']
    simp [he]
  · rw [List.getElem?_map, List.getElem?_range hi]
    rfl

/-- **C135** (training and inference agree).  The logits at position `i` of a call with targets are the logits returned by a call without
targets on the first `i + 1` tokens. -/
theorem C135_infer (act : ℝ → ℝ) (net : Net h s V) (wf : net.WF) (idx : List (Fin V)) (hT : idx.length ≤ net.blockSize) :
    ∃ l, net.logits act idx = .ok l ∧ l.length = idx.length ∧
      ∀ i (hi : i < l.length), net.infer act (idx.take (i + 1)) = .ok l[i] := by
  obtain ⟨y, -, hr⟩ := rows_ok act wf idx hT
  refine ⟨(List.range idx.length).map fun t => net.head (layerNorm net.lnw net.lnb (y t)), ?_, by simp, ?_⟩
  · unfold Net.logits
    rw [hr]
    rfl
  · intro i hi
    have hi0 : i < idx.length := by simpa using hi
    have hlen : (idx.take (i + 1)).length = i + 1 := by rw [List.length_take]; omega
    obtain ⟨r, r', h1, h2, he⟩ := rows_causal act wf idx (idx.take (i + 1)) hT (by rw [hlen]; omega) i hi0 (by omega)
      (by rw [List.take_take]; simp)
    rw [hr] at h1
    cases h1
    unfold Net.infer
    rw [h2]
    have hne : idx.take (i + 1) ≠ [] := by
      intro h0
      rw [h0] at hlen
      simp at hlen
    simp only [bind, Except.bind, hne, if_false, hlen, Nat.add_sub_cancel]
    rw [← he]
    simp [pure, Except.pure]

/-- The probabilities after a prefix are positive and sum to one. -/
theorem C135_prob (act : ℝ → ℝ) (net : Net h s V) (wf : net.WF) (pre : List (Fin V)) (hT : pre.length ≤ net.blockSize)
    (hne : pre ≠ []) : (∀ v, 0 < net.prob act pre v) ∧ ∑ v, net.prob act pre v = 1 := by
  obtain ⟨l, hl⟩ := (C135_errors act net wf pre).2.2.1 hT hne
  have hV : Nonempty (Fin V) := by
    cases pre with
    | nil => exact absurd rfl hne
    | cons v _ => exact ⟨v⟩
  have hpos : 0 < ∑ w, Real.exp (l w) := Finset.sum_pos (fun w _ => Real.exp_pos _) Finset.univ_nonempty
  have hp : ∀ v, net.prob act pre v = Real.exp (l v) / ∑ w, Real.exp (l w) := by
    intro v
    unfold Net.prob
    rw [hl]
  refine ⟨fun v => ?_, ?_⟩
  · rw [hp]
    exact div_pos (Real.exp_pos _) hpos
  · simp only [hp]
    rw [← Finset.sum_div, div_self hpos.ne']

/-- **C135** (loss).  The loss of a batch is the mean of `-log p(target | tokens up to that position)` over all positions with a target, of
all sequences together; it is not a number exactly if no position has a target. -/
theorem C135_loss (act : ℝ → ℝ) (net : Net h s V) (wf : net.WF) (batch : List (List (Fin V) × List (Option (Fin V))))
    (hT : ∀ b ∈ batch, b.1.length ≤ net.blockSize) (ht : ∀ b ∈ batch, b.2.length = b.1.length) :
    net.loss act batch = .ok (if (asked batch).length = 0 then none else
      some (((asked batch).map fun q => - Real.log (net.prob act q.1 q.2)).sum / (asked batch).length)) := by
  have key : ∀ batch : List (List (Fin V) × List (Option (Fin V))), (∀ b ∈ batch, b.1.length ≤ net.blockSize) →
      (∀ b ∈ batch, b.2.length = b.1.length) →
      ∃ l, batch.mapM (fun b => net.logits act b.1) = .ok l ∧
        ((l.zip batch).map fun z => ceTerms z.1 z.2.2).flatten = (asked batch).map fun q => - Real.log (net.prob act q.1 q.2) := by
    intro batch
    induction batch with
    | nil => intro _ _; exact ⟨[], rfl, rfl⟩
    | cons b bs ih =>
      intro hT ht
      obtain ⟨l, h1, h2⟩ := ih (fun b hb => hT b (List.mem_cons_of_mem _ hb)) fun b hb => ht b (List.mem_cons_of_mem _ hb)
      obtain ⟨lb, h3, h4, h5⟩ := C135_infer act net wf b.1 (hT b List.mem_cons_self)
      have hbl := ht b List.mem_cons_self
      refine ⟨lb :: l, ?_, ?_⟩
      · rw [List.mapM_cons, h3, h1]
        rfl
      · have e : ceTerms lb b.2 = ((List.range b.1.length).filterMap fun i =>
            (b.2[i]?.join).map fun t => (b.1.take (i + 1), t)).map fun q => - Real.log (net.prob act q.1 q.2) := by
          unfold ceTerms
          have hz : lb.zip b.2 = (List.range b.1.length).map fun i => (lb.getD i 0, (b.2[i]?.join)) := by
            apply List.ext_getElem
            · simp [h4, hbl]
            · intro i hi1 hi2
              have hi : i < b.1.length := by simpa using hi2
              have hi3 : i < lb.length := by omega
              have hi4 : i < b.2.length := by omega
              simp [List.getElem?_eq_getElem hi3, List.getElem?_eq_getElem hi4]
          rw [hz, List.filterMap_map, List.map_filterMap]
          apply List.filterMap_congr
          intro i hi
          rw [List.mem_range] at hi
          simp only [Function.comp_apply, Option.map_map]
          cases b.2[i]?.join with
          | none => rfl
          | some t =>
            simp only [Option.map_some, Function.comp_apply]
            have hi3 : i < lb.length := by omega
            have hp : net.prob act (b.1.take (i + 1)) t = Real.exp (lb[i] t) / ∑ w, Real.exp (lb[i] w) := by
              unfold Net.prob
              rw [h5 i hi3]
            have hV : Nonempty (Fin V) := ⟨t⟩
            have hpos : 0 < ∑ w, Real.exp (lb[i] w) := Finset.sum_pos (fun w _ => Real.exp_pos _) Finset.univ_nonempty
            rw [hp, Real.log_div (Real.exp_pos _).ne' hpos.ne', Real.log_exp, neg_sub]
            simp [List.getElem?_eq_getElem hi3]
        rw [List.zip_cons_cons, List.map_cons, List.flatten_cons, h2, e]
        unfold asked
        rw [List.flatMap_cons, List.map_append]
  obtain ⟨l, h1, h2⟩ := key batch hT ht
  unfold Net.loss
  rw [h1]
  simp only [bind, Except.bind, h2, List.length_map]
  rfl

/-- **C135** (the two implementations of attention).  With the same weights, flash attention and the mask buffer give the same attention
weights; they are nonnegative, zero for later positions, and sum to one. -/
theorem C135_attention (A : Attn h s) (T : ℕ) (x : ℕ → Vec (h * s)) (a : Fin h) (i : ℕ) (hi : i < T) :
    (∀ n j, ({ A with mask := none } : Attn h s).weight T x a i j = ({ A with mask := some n } : Attn h s).weight T x a i j) ∧
    (∀ j, 0 ≤ A.weight T x a i j) ∧ (∀ j, i < j → A.weight T x a i j = 0) ∧ ∑ j ∈ Finset.range T, A.weight T x a i j = 1 := by
  have hpos : 0 < ∑ m ∈ Finset.range (i + 1), Real.exp (A.score (x i) (x m) a) :=
    Finset.sum_pos (fun w _ => Real.exp_pos _) ⟨0, by simp⟩
  refine ⟨fun n j => by rw [weight_eq, weight_eq]; rfl, fun j => ?_, fun j hj => ?_, ?_⟩
  · rw [weight_eq, filter_le hi]
    split_ifs
    · exact (div_pos (Real.exp_pos _) hpos).le
    · exact le_refl _
  · rw [weight_eq, if_neg (by omega)]
  · have := attend_eq A T x a i hi fun _ => 1
    simp only [mul_one] at this
    rw [this, ← Finset.sum_div, div_self hpos.ne']

/-- Entry `m` of head `a` of part `p` (query, key, value) of a row: column `p * (h * s) + a * s + m` of the projection. -/
noncomputable def qkv (A : Attn h s) (p : ℕ) (x : Vec (h * s)) (a m : ℕ) : ℝ :=
  if hk : p * (h * s) + a * s + m < 3 * (h * s) then (∑ u, A.cAttn.w ⟨_, hk⟩ u * x u) + A.cAttn.b ⟨_, hk⟩ else 0

/-- `softmax(q k / sqrt(s))`-weighted mean of the values of the positions up to `i`, entry `m` of head `a`. -/
noncomputable def headOut (A : Attn h s) (x : ℕ → Vec (h * s)) (i a m : ℕ) : ℝ :=
  (∑ j ∈ Finset.range (i + 1),
      Real.exp ((∑ u ∈ Finset.range s, qkv A 0 (x i) a u * qkv A 1 (x j) a u) / Real.sqrt s) * qkv A 2 (x j) a m) /
    ∑ j ∈ Finset.range (i + 1), Real.exp ((∑ u ∈ Finset.range s, qkv A 0 (x i) a u * qkv A 1 (x j) a u) / Real.sqrt s)

theorem part_eq_qkv (A : Attn h s) (p : Fin 3) (x : Vec (h * s)) (a : Fin h) (m : Fin s) : A.part p x a m = qkv A p x a m := by
  have hv : ((finProdFinEquiv (p, finProdFinEquiv (a, m)) : Fin (3 * (h * s))) : ℕ) = p * (h * s) + a * s + m := by
    simp only [finProdFinEquiv_apply_val]
    ring
  have hk : (p : ℕ) * (h * s) + a * s + m < 3 * (h * s) := hv ▸ (finProdFinEquiv (p, finProdFinEquiv (a, m))).isLt
  unfold qkv Attn.part Linear.app
  rw [dif_pos hk]
  have : (finProdFinEquiv (p, finProdFinEquiv (a, m)) : Fin (3 * (h * s))) = ⟨_, hk⟩ := Fin.ext hv
  rw [this]

/-- **C135** (the attention formula).  Unless the mask buffer is too small, the attention layer maps row `i` to the output projection of the heads,
laid out one after the other; each is the mean of the values of the positions up to `i` with weights proportional to the exponentials of the products of
query and key divided by the square root of the head size. -/
theorem C135_formula (A : Attn h s) (T : ℕ) (x : ℕ → Vec (h * s)) (hm : ∀ n, A.mask = some n → T ≤ n) :
    ∃ y, A.forward T x = .ok y ∧ ∀ i < T, ∀ c,
      y i c = (∑ k : Fin (h * s), A.cProj.w c k * headOut A x i (k / s) (k % s)) + A.cProj.b c := by
  refine ⟨_, attn_forward_ok A T x hm, fun i hi c => ?_⟩
  unfold Linear.app
  congr 1
  refine Finset.sum_congr rfl fun k _ => ?_
  congr 1
  dsimp only
  rw [attend_eq A T x _ i hi fun j => A.part 2 (x j) (finProdFinEquiv.symm k).1 (finProdFinEquiv.symm k).2]
  have hs : ∀ j, A.score (x i) (x j) (finProdFinEquiv.symm k).1 =
      (∑ u ∈ Finset.range s, qkv A 0 (x i) (k / s) u * qkv A 1 (x j) (k / s) u) / Real.sqrt s := by
    intro j
    unfold Attn.score
    rw [mul_one_div, Finset.sum_range]
    simp only [part_eq_qkv]
    rfl
  unfold headOut
  rw [Finset.sum_div]
  refine Finset.sum_congr rfl fun j _ => ?_
  rw [hs, part_eq_qkv]
  simp only [hs]
  rw [div_mul_eq_mul_div]
  rfl

/-- The hypothesis: flash attention, or a buffer of the sequence's length. -/
example (A : Attn 2 3) : ∀ n, ({ A with mask := some 5 } : Attn 2 3).mask = some n → 5 ≤ n := by simp

theorem block_crop (act : ℝ → ℝ) (n : ℕ) (B : Block h s) (T : ℕ) (x : ℕ → Vec (h * s)) (hT : T ≤ n)
    (hm : ∀ m, B.attn.mask = some m → T ≤ m) :
    ({ B with attn := { B.attn with mask := B.attn.mask.map (min n) } } : Block h s).forward act T x = B.forward act T x := by
  unfold Block.forward
  rw [attn_forward_ok B.attn T _ hm]
  rw [attn_forward_ok ({ B.attn with mask := B.attn.mask.map (min n) } : Attn h s) T _ (by
    intro m hmm
    simp only [Option.map_eq_some_iff] at hmm
    obtain ⟨k, hk, rfl⟩ := hmm
    have := hm k hk
    omega)]
  simp only [weight_eq]
  rfl

/-- **C135** (cropping).  `crop_block_size(n)` raises exactly for `n` above the block size; otherwise the network gives the same logits as
before on sequences of at most `n` tokens and raises on longer ones. -/
theorem C135_crop (act : ℝ → ℝ) (net : Net h s V) (wf : net.WF) (n : ℕ) :
    (net.blockSize < n → net.crop n = .error .assertionError) ∧
    (n ≤ net.blockSize → ∃ net', net.crop n = .ok net' ∧ net'.WF ∧
      (∀ idx, idx.length ≤ n → net'.logits act idx = net.logits act idx ∧ net'.infer act idx = net.infer act idx) ∧
      ∀ idx, n < idx.length → net'.logits act idx = .error .assertionError) := by
  refine ⟨fun hn => by unfold Net.crop; rw [if_pos hn], fun hn => ?_⟩
  have hc : net.crop n = .ok { net with
    blockSize := n
    wpe := net.wpe.take n
    blocks := net.blocks.map fun B => { B with attn := { B.attn with mask := B.attn.mask.map (min n) } } } := by
    unfold Net.crop
    rw [if_neg (by omega)]
  set net' : Net h s V := { net with
    blockSize := n
    wpe := net.wpe.take n
    blocks := net.blocks.map fun B => { B with attn := { B.attn with mask := B.attn.mask.map (min n) } } } with hnet'
  have wf' : net'.WF := by
    constructor
    · simp only [hnet', List.length_take, wf.1]
      omega
    · intro B hB
      simp only [hnet', List.mem_map] at hB
      obtain ⟨B0, hB0, rfl⟩ := hB
      rcases wf.2 B0 hB0 with h1 | h1
      · left; simp [h1]
      · right; simp [h1, hnet', hn]
  refine ⟨net', hc, wf', ?_, fun idx hi => ((C135_errors act net' wf' idx).1 hi).1⟩
  intro idx hi
  obtain ⟨y, hy, hr⟩ := rows_ok act wf idx (by omega)
  obtain ⟨y', hy', hr'⟩ := rows_ok act wf' idx hi
  have hfold : ∀ x, net'.blocks.foldlM (fun x B => B.forward act idx.length x) x =
      net.blocks.foldlM (fun x B => B.forward act idx.length x) x := by
    have hm := mask_le wf (T := idx.length) (by omega)
    have : net'.blocks = net.blocks.map fun B => { B with attn := { B.attn with mask := B.attn.mask.map (min n) } } := rfl
    rw [this]
    revert hm
    generalize net.blocks = bs
    intro hm
    induction bs with
    | nil => intro x; rfl
    | cons B bs ih =>
      intro x
      rw [List.map_cons, List.foldlM_cons, List.foldlM_cons, block_crop act n B idx.length x hi (hm B List.mem_cons_self)]
      congr 1
      funext z
      exact ih (fun B' hB => hm B' (List.mem_cons_of_mem _ hB)) z
  rw [hfold] at hy'
  have hyy : ∀ t < idx.length, y' t = y t := by
    intro t ht
    refine fold_causal act net.blocks idx.length idx.length _ _ y' y (idx.length - 1) (by omega) (by omega)
      (mask_le wf (by omega)) (mask_le wf (by omega)) ?_ hy' hy t (by omega)
    intro u hu
    have : net'.wpe.getD u 0 = net.wpe.getD u 0 := by
      simp only [hnet', List.getD_eq_getElem?_getD]
      rw [List.getElem?_take_of_lt (by omega)]
    rw [this]
  unfold Net.logits Net.infer
  rw [hr, hr']
  have hhead : ∀ v, net'.head v = net.head v := fun v => rfl
  constructor
  · simp only [bind, Except.bind, pure, Except.pure, Except.ok.injEq]
    apply List.map_congr_left
    intro t ht
    rw [List.mem_range] at ht
    rw [hyy t ht, hhead]
  · simp only [bind, Except.bind]
    split_ifs with h0
    · rfl
    · have : 0 < idx.length := List.length_pos_iff.2 h0
      rw [hyy _ (by omega), hhead]

end Verif.GPT
