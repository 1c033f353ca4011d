import Verif.Bench.GPTGenModel
import Verif.Bench.GPTProps
import Mathlib.Data.Fintype.BigOperators
import Mathlib.Algebra.BigOperators.Fin
import Mathlib.Tactic.LinearCombination
import Mathlib.Tactic.Ring

/-! # C136, C137: sampling from the language model; its optimiser groups -/

namespace Verif.GPT

open Verif

variable {h s V : ℕ}

/-! ### Specification -/

/-- A token is among the top `k`: fewer than `k` tokens have a strictly larger value.  Without `k`, every token is. -/
def Kept (l : Fin V → ℝ) (k : Option ℤ) (v : Fin V) : Prop :=
  ∀ k', k = some k' → ((Finset.univ.filter fun w => l v < l w).card : ℤ) < k'

/-- The probability of the token `v` after `idx`. -/
noncomputable def Net.nextProb (act : ℝ → ℝ) (net : Net h s V) (temp : ℝ) (k : Option ℤ) (idx : List (Fin V)) (v : Fin V) : ℝ :=
  match net.next act temp k idx with
  | .ok p => p v
  | .error _ => 0

/-- The probability of the continuation `ys` of `idx`: the product of the probabilities of its tokens, each given all before. -/
noncomputable def Net.contProb (act : ℝ → ℝ) (net : Net h s V) (temp : ℝ) (k : Option ℤ) : List (Fin V) → List (Fin V) → ℝ
  | _, [] => 1
  | idx, y :: ys => net.nextProb act temp k idx y * Net.contProb act net temp k (idx ++ [y]) ys

/-! ### Helper lemmas -/

theorem sorted_kth (L : List ℝ) (hs : L.Pairwise (fun a b => b ≤ a)) (k : ℕ) (hk : 0 < k) (hkL : k ≤ L.length) (x : ℝ) :
    ∃ c, (L.take k).getLast? = some c ∧ (¬ x < c ↔ L.countP (fun y => decide (x < y)) < k) := by
  have hlen : (L.take k).length = k := by rw [List.length_take]; omega
  have hlt : k - 1 < L.length := by omega
  refine ⟨L[k - 1], ?_, ?_⟩
  · rw [List.getLast?_eq_getElem?, hlen, List.getElem?_take_of_lt (by omega), List.getElem?_eq_getElem hlt]
  · have hsplit : L.countP (fun y => decide (x < y)) = (L.take (k - 1)).countP (fun y => decide (x < y)) +
        (L.drop (k - 1)).countP (fun y => decide (x < y)) := by
      rw [← List.countP_append, List.take_append_drop]
    have hsplit2 : L.countP (fun y => decide (x < y)) = (L.take k).countP (fun y => decide (x < y)) +
        (L.drop k).countP (fun y => decide (x < y)) := by
      rw [← List.countP_append, List.take_append_drop]
    rw [List.pairwise_iff_getElem] at hs
    constructor
    · intro hx
      have h0 : (L.drop (k - 1)).countP (fun y => decide (x < y)) = 0 := by
        rw [List.countP_eq_zero]
        intro y hy
        obtain ⟨m, hm, rfl⟩ := List.mem_iff_getElem.1 hy
        rw [List.getElem_drop, decide_eq_true_eq]
        have hm' : k - 1 + m < L.length := by rw [List.length_drop] at hm; omega
        rcases Nat.eq_zero_or_pos m with h0 | h0
        · subst h0; exact hx
        · have := hs (k - 1) (k - 1 + m) hlt hm' (by omega)
          intro h1
          exact hx (lt_of_lt_of_le h1 this)
      have h1 : (L.take (k - 1)).countP (fun y => decide (x < y)) ≤ (L.take (k - 1)).length := List.countP_le_length
      rw [List.length_take] at h1
      omega
    · intro hc hx
      have h1 : (L.take k).countP (fun y => decide (x < y)) = (L.take k).length := by
        rw [List.countP_eq_length]
        intro y hy
        obtain ⟨m, hm, rfl⟩ := List.mem_iff_getElem.1 hy
        rw [hlen] at hm
        rw [List.getElem_take, decide_eq_true_eq]
        rcases Nat.lt_or_ge m (k - 1) with h0 | h0
        · exact lt_of_lt_of_le hx (hs m (k - 1) (by omega) hlt h0)
        · have : m = k - 1 := by omega
          subst this
          exact hx
      omega

theorem countP_values (l : Fin V → ℝ) (x : ℝ) :
    (((List.finRange V).map l).mergeSort (fun a b => decide (b ≤ a))).countP (fun y => decide (x < y)) =
      (Finset.univ.filter fun w => x < l w).card := by
  rw [(List.mergeSort_perm _ _).countP_eq, List.countP_map]
  rw [Finset.card_def, Finset.filter_val]
  rw [← Multiset.countP_eq_card_filter]
  have : (Finset.univ : Finset (Fin V)).val = (List.finRange V : List (Fin V)) := rfl
  rw [this, Multiset.coe_countP]
  rfl

theorem sorted_values (l : Fin V → ℝ) :
    (((List.finRange V).map l).mergeSort (fun a b => decide (b ≤ a))).Pairwise (fun a b => b ≤ a) := by
  have := List.pairwise_mergeSort (le := fun a b : ℝ => decide (b ≤ a))
    (by intro a b c h1 h2; simp only [decide_eq_true_eq] at *; exact le_trans h2 h1)
    (by intro a b; simp only [Bool.or_eq_true, decide_eq_true_eq]; exact le_total b a) ((List.finRange V).map l)
  exact this.imp (by intro a b hab; simpa using hab)

theorem topK_ok (l : Fin V → ℝ) (k : Option ℤ) (hk : ∀ k', k = some k' → 0 < k') (hV : 0 < V) :
    ∃ row : Fin V → Option ℝ, topK l k = .ok row ∧ ∀ v, (Kept l k v → row v = some (l v)) ∧ (¬ Kept l k v → row v = none) := by
  cases k with
  | none =>
    refine ⟨_, rfl, fun v => ⟨fun _ => rfl, fun hn => absurd ?_ hn⟩⟩
    intro k' h0
    cases h0
  | some k =>
    have hk0 := hk k rfl
    set L := ((List.finRange V).map l).mergeSort (fun a b => decide (b ≤ a)) with hL
    have hlen : L.length = V := by rw [hL, List.length_mergeSort]; simp
    have hkn : 0 < (min k (V : ℤ)).toNat := by omega
    have hkl : (min k (V : ℤ)).toNat ≤ L.length := by omega
    obtain ⟨c, hc, -⟩ := sorted_kth L (sorted_values l) _ hkn hkl 0
    refine ⟨fun v => if l v < c then none else some (l v), ?_, ?_⟩
    · unfold topK
      simp only
      rw [if_neg (by omega)]
      unfold kth
      rw [← hL, hc]
    · intro v
      obtain ⟨c', hc', hiff⟩ := sorted_kth L (sorted_values l) _ hkn hkl (l v)
      rw [hc] at hc'
      cases hc'
      rw [hL, countP_values] at hiff
      have hcard : (Finset.univ.filter fun w => l v < l w).card < V := by
        have : (Finset.univ.filter fun w => l v < l w) ⊂ (Finset.univ : Finset (Fin V)) := by
          rw [Finset.ssubset_univ_iff]
          intro h1
          have := Finset.mem_univ v
          rw [← h1] at this
          simp at this
        simpa using Finset.card_lt_card this
      have hK : Kept l (some k) v ↔ ¬ l v < c := by
        rw [hiff]
        unfold Kept
        constructor
        · intro h1
          have := h1 k rfl
          omega
        · intro h1 k' h2
          cases h2
          omega
      rw [hK]
      exact ⟨fun h1 => if_neg h1, fun h1 => if_pos (not_not.1 h1)⟩

theorem kept_card (l : Fin V → ℝ) (k : ℤ) (hk : 0 < k) [DecidablePred (Kept l (some k))] :
    min k (V : ℤ) ≤ ((Finset.univ.filter fun v => Kept l (some k) v).card : ℤ) := by
  rcases Nat.eq_zero_or_pos V with h0 | hV
  · subst h0; simp
  · set L := ((List.finRange V).map l).mergeSort (fun a b => decide (b ≤ a)) with hL
    have hlen : L.length = V := by rw [hL, List.length_mergeSort]; simp
    have hkn : 0 < (min k (V : ℤ)).toNat := by omega
    have hkl : (min k (V : ℤ)).toNat ≤ L.length := by omega
    -- a token that is not kept has at least `k` tokens above it; take the largest such token
    by_contra hlt
    push Not at hlt
    have hex : ∃ v, ¬ Kept l (some k) v := by
      by_contra hall
      push Not at hall
      have : (Finset.univ.filter fun v => Kept l (some k) v) = Finset.univ := by
        ext v
        simp [hall v]
      rw [this] at hlt
      simp at hlt
    obtain ⟨v, hv, hmax⟩ := Finset.exists_max_image (Finset.univ.filter fun v => ¬ Kept l (some k) v) l
      (by obtain ⟨v, hv⟩ := hex; exact ⟨v, by simp [hv]⟩)
    rw [Finset.mem_filter] at hv
    have hsub : (Finset.univ.filter fun w => l v < l w) ⊆ (Finset.univ.filter fun v => Kept l (some k) v) := by
      intro w hw
      rw [Finset.mem_filter] at hw ⊢
      refine ⟨Finset.mem_univ _, ?_⟩
      by_contra hn
      have := hmax w (by simp [hn])
      exact absurd hw.2 (not_lt.2 this)
    have hle := Finset.card_le_card hsub
    have hnk : k ≤ ((Finset.univ.filter fun w => l v < l w).card : ℤ) := by
      by_contra h1
      push Not at h1
      exact hv.2 fun k' h2 => by cases h2; exact h1
    omega

theorem window_len (n : ℕ) (hn : 0 < n) (idx : List (Fin V)) :
    window n idx = idx.drop (idx.length - n) ∧ (window n idx).length ≤ n ∧ (idx ≠ [] → window n idx ≠ []) := by
  unfold window
  rw [if_neg (show ¬ n = 0 by omega)]
  split_ifs with h1
  · refine ⟨by rw [show idx.length - n = 0 by omega, List.drop_zero], h1, id⟩
  · refine ⟨rfl, by rw [List.length_drop]; omega, fun _ h2 => ?_⟩
    have := congrArg List.length h2
    rw [List.length_drop] at this
    simp at this
    omega

/-! ### C136 -/

open Classical in
/-- **C136** (the next token).  For a non-empty sequence, a non-zero temperature and `top_k` absent or at least one, the next token is drawn
from the softmax of the logits over the temperature, restricted to the tokens with fewer than `top_k` tokens strictly above them; the logits
are those of the network on the last `block_size` tokens.  At least `min(top_k, vocabulary)` tokens remain (more if there are ties), their
probabilities are positive, and the probabilities sum to one. -/
theorem C136_next (act : ℝ → ℝ) (net : Net h s V) (wf : net.WF) (hbs : 0 < net.blockSize) (temp : ℝ) (htemp : temp ≠ 0)
    (k : Option ℤ) (hk : ∀ k', k = some k' → 0 < k') (idx : List (Fin V)) (hne : idx ≠ []) :
    ∃ l p, net.infer act (idx.drop (idx.length - net.blockSize)) = .ok l ∧ net.next act temp k idx = .ok p ∧
      (∀ v, p v = if Kept (fun v => l v / temp) k v then
        Real.exp (l v / temp) / ∑ w ∈ Finset.univ.filter (fun w => Kept (fun v => l v / temp) k w), Real.exp (l w / temp) else 0) ∧
      (∀ v, 0 < p v ↔ Kept (fun v => l v / temp) k v) ∧ ∑ v, p v = 1 ∧
      ∀ k', k = some k' → min k' (V : ℤ) ≤ ((Finset.univ.filter fun v => 0 < p v).card : ℤ) := by
  obtain ⟨hw, hwl, hwn⟩ := window_len net.blockSize hbs idx
  obtain ⟨l, hl⟩ := (C135_errors act net wf (window net.blockSize idx)).2.2.1 hwl (hwn hne)
  have hV : 0 < V := by
    cases idx with
    | nil => exact absurd rfl hne
    | cons v _ => exact v.pos
  obtain ⟨row, hrow, hval⟩ := topK_ok (fun v => l v / temp) k hk hV
  have helim : ∀ v, (row v).elim 0 Real.exp = if Kept (fun v => l v / temp) k v then Real.exp (l v / temp) else 0 := by
    intro v
    split_ifs with hK
    · rw [(hval v).1 hK]; rfl
    · rw [(hval v).2 hK]; rfl
  have hsum : ∑ w, (row w).elim 0 Real.exp =
      ∑ w ∈ Finset.univ.filter (fun w => Kept (fun v => l v / temp) k w), Real.exp (l w / temp) := by
    rw [Finset.sum_filter]
    exact Finset.sum_congr rfl fun w _ => helim w
  have hcard : ∀ k', k = some k' → min k' (V : ℤ) ≤ ((Finset.univ.filter fun v => Kept (fun v => l v / temp) k v).card : ℤ) := by
    intro k' hk'
    subst hk'
    exact kept_card _ k' (hk k' rfl)
  have hnon : (Finset.univ.filter (fun w => Kept (fun v => l v / temp) k w)).Nonempty := by
    cases hkk : k with
    | none =>
      refine ⟨⟨0, hV⟩, ?_⟩
      rw [Finset.mem_filter]
      exact ⟨Finset.mem_univ _, fun k' h0 => by cases h0⟩
    | some k' =>
      have h1 := hcard k' hkk
      rw [hkk] at h1
      have h2 := hk k' hkk
      rw [← Finset.card_pos]
      omega
  have hpos : 0 < ∑ w ∈ Finset.univ.filter (fun w => Kept (fun v => l v / temp) k w), Real.exp (l w / temp) :=
    Finset.sum_pos (fun w _ => Real.exp_pos _) hnon
  have hp : ∀ v, (row v).elim 0 Real.exp / ∑ w, (row w).elim 0 Real.exp = if Kept (fun v => l v / temp) k v then
        Real.exp (l v / temp) / ∑ w ∈ Finset.univ.filter (fun w => Kept (fun v => l v / temp) k w), Real.exp (l w / temp) else 0 := by
    intro v
    rw [helim, hsum]
    split_ifs <;> simp
  have hiff : ∀ v, 0 < (row v).elim 0 Real.exp / ∑ w, (row w).elim 0 Real.exp ↔ Kept (fun v => l v / temp) k v := by
    intro v
    rw [hp]
    split_ifs with hK
    · exact ⟨fun _ => hK, fun _ => div_pos (Real.exp_pos _) hpos⟩
    · exact ⟨fun h0 => absurd h0 (lt_irrefl _), fun h0 => absurd h0 hK⟩
  refine ⟨l, fun v => (row v).elim 0 Real.exp / ∑ w, (row w).elim 0 Real.exp, by rw [← hw]; exact hl, ?_, hp, hiff, ?_, ?_⟩
  · unfold Net.next
    rw [hl]
    simp only [bind, Except.bind, hrow, htemp, if_false]
    rfl
  · rw [← Finset.sum_div]
    rw [hsum]
    exact div_self hpos.ne'
  · intro k' hk'
    simp only [hiff]
    exact hcard k' hk'

/-- **C136** (only the last tokens matter).  Two sequences with the same last `block_size` tokens have the same next-token
distribution. -/
theorem C136_window (act : ℝ → ℝ) (net : Net h s V) (hbs : 0 < net.blockSize) (temp : ℝ) (k : Option ℤ)
    (pre pre' tail : List (Fin V)) (ht : net.blockSize ≤ tail.length) :
    net.next act temp k (pre ++ tail) = net.next act temp k (pre' ++ tail) := by
  have key : ∀ pre : List (Fin V), window net.blockSize (pre ++ tail) = tail.drop (tail.length - net.blockSize) := by
    intro pre
    rw [(window_len net.blockSize hbs (pre ++ tail)).1, List.length_append,
      show pre.length + tail.length - net.blockSize = pre.length + (tail.length - net.blockSize) by omega, List.drop_append]
    rw [List.drop_eq_nil_of_le (by omega), List.nil_append, Nat.add_sub_cancel_left]
  unfold Net.next
  rw [key, key]

/-- **C136** (what raises).  With at least one token to draw: an empty prompt raises `IndexError`, `top_k = 0` raises `IndexError`, a negative
`top_k` and a zero temperature raise `RuntimeError`.  With no token to draw nothing is checked. -/
theorem C136_errors (act : ℝ → ℝ) (net : Net h s V) (wf : net.WF) (hbs : 0 < net.blockSize) (temp : ℝ) (n : ℕ)
    (idx : List (Fin V)) (hne : idx ≠ []) :
    net.generate act temp none (n + 1) [] = .error .indexError ∧
    net.generate act temp (some 0) (n + 1) idx = .error .indexError ∧
    (∀ k, k < 0 → net.generate act temp (some k) (n + 1) idx = .error .runtimeError) ∧
    (∀ k : Option ℤ, (∀ k', k = some k' → 0 < k') → net.generate act 0 k (n + 1) idx = .error .runtimeError) ∧
    ∀ k idx, net.generate act temp k 0 idx = .ok [(idx, 1)] := by
  obtain ⟨hw, hwl, hwn⟩ := window_len net.blockSize hbs idx
  obtain ⟨l, hl⟩ := (C135_errors act net wf (window net.blockSize idx)).2.2.1 hwl (hwn hne)
  have hV : 0 < V := by
    cases idx with
    | nil => exact absurd rfl hne
    | cons v _ => exact v.pos
  refine ⟨?_, ?_, ?_, ?_, fun _ _ => rfl⟩
  · unfold Net.generate Net.next
    have : window net.blockSize ([] : List (Fin V)) = [] := by simp [window]
    rw [this, (C135_errors act net wf []).2.2.2]
    rfl
  · unfold Net.generate Net.next
    rw [hl]
    have : topK (fun v => l v / temp) (some 0) = .error .indexError := by
      unfold topK
      simp only
      rw [if_neg (by omega)]
      have : (min (0 : ℤ) (V : ℤ)).toNat = 0 := by omega
      rw [this]
      rfl
    simp only [bind, Except.bind, this]
  · intro k hk
    unfold Net.generate Net.next
    rw [hl]
    have : topK (fun v => l v / temp) (some k) = .error .runtimeError := by
      unfold topK
      simp only
      rw [if_pos (by omega)]
    simp only [bind, Except.bind, this]
  · intro k hk
    unfold Net.generate Net.next
    rw [hl]
    obtain ⟨row, hrow, -⟩ := topK_ok (fun v => l v / 0) k hk hV
    simp only [bind, Except.bind, hrow, if_true]

/-- The probability the list of results gives to `y`. -/
def mass (D : List (List (Fin V) × ℝ)) (y : List (Fin V)) : ℝ := ((D.filter fun z => decide (z.1 = y)).map (·.2)).sum

theorem mass_append (D E : List (List (Fin V) × ℝ)) (y : List (Fin V)) : mass (D ++ E) y = mass D y + mass E y := by
  unfold mass
  rw [List.filter_append, List.map_append, List.sum_append]

theorem mass_scale (c : ℝ) (D : List (List (Fin V) × ℝ)) (y : List (Fin V)) :
    mass (D.map fun z => (z.1, c * z.2)) y = c * mass D y := by
  unfold mass
  induction D with
  | nil => simp
  | cons z D ih =>
    by_cases hz : z.1 = y
    · simp only [List.map_cons, List.filter_cons, hz, decide_true, if_true, List.sum_cons]
      rw [ih]
      ring
    · simp only [List.map_cons, List.filter_cons, hz, decide_false]
      exact ih

theorem mass_flatten (R : List (List (List (Fin V) × ℝ))) (y : List (Fin V)) :
    mass R.flatten y = (R.map fun D => mass D y).sum := by
  induction R with
  | nil => rfl
  | cons D R ih => rw [List.flatten_cons, mass_append, ih]; rfl

theorem mapM_all {α β : Type} (f : α → Except Err β) (g : α → β) (l : List α) (hf : ∀ a ∈ l, f a = .ok (g a)) :
    l.mapM f = .ok (l.map g) := by
  induction l with
  | nil => rfl
  | cons a l ih =>
    rw [List.mapM_cons, hf a List.mem_cons_self, ih fun b hb => hf b (List.mem_cons_of_mem _ hb)]
    rfl

theorem sum_finRange (f : Fin V → ℝ) : ((List.finRange V).map f).sum = ∑ v, f v := by
  rw [← List.ofFn_eq_map, List.sum_ofFn]

/-- **C136** (generation).  `generate(idx, n)` returns the prompt followed by `n` tokens; a continuation has the product of the
probabilities of its tokens, each given everything before it, and these probabilities sum to one. -/
theorem C136_generate (act : ℝ → ℝ) (net : Net h s V) (wf : net.WF) (hbs : 0 < net.blockSize) (temp : ℝ) (htemp : temp ≠ 0)
    (k : Option ℤ) (hk : ∀ k', k = some k' → 0 < k') (n : ℕ) (idx : List (Fin V)) (hne : idx ≠ []) :
    ∃ D, net.generate act temp k n idx = .ok D ∧
      (∀ z ∈ D, idx <+: z.1 ∧ z.1.length = idx.length + n) ∧
      (∀ ys, ys.length = n → mass D (idx ++ ys) = net.contProb act temp k idx ys) ∧
      (D.map (·.2)).sum = 1 := by
  induction n generalizing idx with
  | zero =>
    refine ⟨_, rfl, ?_, ?_, by simp⟩
    · intro z hz
      rw [List.mem_singleton] at hz
      subst hz
      exact ⟨List.prefix_refl _, rfl⟩
    · intro ys hys
      rw [List.length_eq_zero_iff] at hys
      subst hys
      simp [mass, Net.contProb]
  | succ n ih =>
    obtain ⟨l, p, -, hp, -, -, hsum, -⟩ := C136_next act net wf hbs temp htemp k hk idx hne
    choose D hD hpre hmass hone using fun v : Fin V => ih (idx ++ [v]) (by simp)
    have hgen : net.generate act temp k (n + 1) idx =
        .ok ((List.finRange V).map fun v => (D v).map fun z => (z.1, p v * z.2)).flatten := by
      unfold Net.generate
      rw [hp]
      simp only [bind, Except.bind]
      rw [mapM_all _ (fun v => (D v).map fun z => (z.1, p v * z.2)) (List.finRange V) (by
        intro v _
        rw [hD v]
        rfl)]
      rfl
    refine ⟨_, hgen, ?_, ?_, ?_⟩
    · intro z hz
      rw [List.mem_flatten] at hz
      obtain ⟨E, hE, hz⟩ := hz
      obtain ⟨v, -, rfl⟩ := List.mem_map.1 hE
      obtain ⟨z0, hz0, rfl⟩ := List.mem_map.1 hz
      obtain ⟨h1, h2⟩ := hpre v z0 hz0
      refine ⟨(List.prefix_append idx [v]).trans h1, ?_⟩
      rw [h2, List.length_append, List.length_singleton]
      omega
    · intro ys hys
      cases ys with
      | nil => simp at hys
      | cons y ys =>
        rw [mass_flatten, List.map_map]
        have : ∀ v, ((fun D => mass D (idx ++ y :: ys)) ∘ fun v => (D v).map fun z => (z.1, p v * z.2)) v =
            if v = y then p y * net.contProb act temp k (idx ++ [y]) ys else 0 := by
          intro v
          simp only [Function.comp_apply]
          rw [mass_scale]
          split_ifs with hvy
          · subst hvy
            have := hmass v ys (by simpa using hys)
            rw [List.append_assoc] at this
            rw [← this]
            rfl
          · have : mass (D v) (idx ++ y :: ys) = 0 := by
              unfold mass
              have : (D v).filter (fun z => decide (z.1 = idx ++ y :: ys)) = [] := by
                rw [List.filter_eq_nil_iff]
                intro z hz hzy
                rw [decide_eq_true_eq] at hzy
                obtain ⟨⟨t, ht⟩, -⟩ := hpre v z hz
                rw [hzy, List.append_assoc] at ht
                have := List.append_cancel_left ht
                simp only [List.singleton_append, List.cons.injEq] at this
                exact hvy this.1
              rw [this]
              rfl
            rw [this, mul_zero]
        rw [funext this, sum_finRange]
        rw [Finset.sum_ite_eq' Finset.univ y]
        simp only [Finset.mem_univ, if_true, Net.contProb]
        congr 1
        unfold Net.nextProb
        rw [hp]
    · rw [List.map_flatten, List.sum_flatten, List.map_map, List.map_map]
      have : ∀ v, ((List.sum ∘ List.map (·.2)) ∘ fun v => (D v).map fun z => (z.1, p v * z.2)) v = p v := by
        intro v
        simp only [Function.comp_apply, List.map_map]
        have h1 : ((D v).map ((fun x : List (Fin V) × ℝ => x.2) ∘ fun z => (z.1, p v * z.2))).sum = p v * ((D v).map (·.2)).sum := by
          rw [← List.sum_map_mul_left]
          rfl
        rw [h1, hone v, mul_one]
      rw [funext this, sum_finRange, hsum]

/-- **C136** (greedy decoding).  With `top_k = 1` and a positive temperature only tokens with the largest logit are drawn. -/
theorem C136_greedy (act : ℝ → ℝ) (net : Net h s V) (wf : net.WF) (hbs : 0 < net.blockSize) (temp : ℝ) (htemp : 0 < temp)
    (idx : List (Fin V)) (hne : idx ≠ []) :
    ∃ l p, net.infer act (idx.drop (idx.length - net.blockSize)) = .ok l ∧ net.next act temp (some 1) idx = .ok p ∧
      ∀ v, 0 < p v ↔ ∀ w, l w ≤ l v := by
  obtain ⟨l, p, h1, h2, -, h3, -, -⟩ := C136_next act net wf hbs temp htemp.ne' (some 1) (by intro k' hk; cases hk; omega) idx hne
  refine ⟨l, p, h1, h2, fun v => ?_⟩
  rw [h3]
  unfold Kept
  constructor
  · intro hK w
    have hlt := hK 1 rfl
    beta_reduce at hlt
    have h0 : (Finset.univ.filter fun w => l v / temp < l w / temp).card = 0 := by omega
    rw [Finset.card_eq_zero, Finset.filter_eq_empty_iff] at h0
    have := h0 (Finset.mem_univ w)
    rw [div_lt_div_iff_of_pos_right htemp] at this
    exact not_lt.1 this
  · intro hall k' hk'
    cases hk'
    have h0 : (Finset.univ.filter fun w => l v / temp < l w / temp) = ∅ := by
      rw [Finset.filter_eq_empty_iff]
      intro w _
      rw [div_lt_div_iff_of_pos_right htemp]
      exact not_lt.2 (hall w)
    rw [h0]
    simp

/-! ### C137 -/

theorem named_mem (seen : List PName) (reg : List (PName × Param)) :
    ∀ z ∈ namedParameters seen reg, z ∈ reg ∧ z.2.ident ∉ seen := by
  induction reg generalizing seen with
  | nil => intro z hz; cases hz
  | cons a l ih =>
    obtain ⟨n, p⟩ := a
    intro z hz
    unfold namedParameters at hz
    split_ifs at hz with h1
    · exact ⟨List.mem_cons_of_mem _ (ih seen z hz).1, (ih seen z hz).2⟩
    · rcases List.mem_cons.1 hz with rfl | hz
      · exact ⟨List.mem_cons_self, h1⟩
      · obtain ⟨h2, h3⟩ := ih _ z hz
        exact ⟨List.mem_cons_of_mem _ h2, fun h4 => h3 (List.mem_cons_of_mem _ h4)⟩

theorem named_count (seen : List PName) (reg : List (PName × Param))
    (hc : ∀ z ∈ reg, ∀ z' ∈ reg, z.2.ident = z'.2.ident → z.2 = z'.2) (p : Param) :
    ((namedParameters seen reg).map (·.2)).count p = if p ∈ reg.map (·.2) ∧ p.ident ∉ seen then 1 else 0 := by
  induction reg generalizing seen with
  | nil => simp [namedParameters]
  | cons a l ih =>
    obtain ⟨n, q⟩ := a
    have hc' : ∀ z ∈ l, ∀ z' ∈ l, z.2.ident = z'.2.ident → z.2 = z'.2 :=
      fun z hz z' hz' => hc z (List.mem_cons_of_mem _ hz) z' (List.mem_cons_of_mem _ hz')
    have hq : ∀ p ∈ l.map (·.2), p.ident = q.ident → p = q := by
      intro p hp hi
      obtain ⟨z, hz, rfl⟩ := List.mem_map.1 hp
      exact hc z (List.mem_cons_of_mem _ hz) (n, q) List.mem_cons_self hi
    unfold namedParameters
    split_ifs with h1 h2 h2
    · rw [ih seen hc', if_pos]
      refine ⟨?_, h2.2⟩
      rcases List.mem_cons.1 h2.1 with h3 | h3
      · subst h3; exact absurd h1 h2.2
      · exact h3
    · rw [ih seen hc', if_neg]
      rintro ⟨h3, h4⟩
      exact h2 ⟨List.mem_cons_of_mem _ h3, h4⟩
    · rw [List.map_cons, List.count_cons, ih _ hc']
      by_cases hpq : p = q
      · subst hpq
        simp
      · have hne : p.ident ≠ q.ident := by
          intro hi
          rcases List.mem_cons.1 h2.1 with h3 | h3
          · exact hpq h3
          · exact hpq (hq p h3 hi)
        rw [if_pos]
        · simp [Ne.symm hpq]
        · refine ⟨?_, ?_⟩
          · rcases List.mem_cons.1 h2.1 with h3 | h3
            · exact absurd h3 hpq
            · exact h3
          · intro h4
            rcases List.mem_cons.1 h4 with h5 | h5
            · exact hne h5
            · exact h2.2 h5
    · rw [List.map_cons, List.count_cons, ih _ hc']
      have hpq : ¬ q = p := by
        intro h3
        subst h3
        exact h2 ⟨List.mem_cons_self, h1⟩
      rw [if_neg]
      · simp [hpq]
      · rintro ⟨h3, h4⟩
        exact h2 ⟨List.mem_cons_of_mem _ h3, fun h5 => h4 (List.mem_cons_of_mem _ h5)⟩

theorem filter_map_count (l : List (PName × Param)) (f : Param → Bool) (p : Param) :
    ((l.filter fun z => f z.2).map (·.2)).count p = if f p then (l.map (·.2)).count p else 0 := by
  induction l with
  | nil => simp
  | cons a l ih =>
    rw [List.filter_cons]
    by_cases ha : f a.2 = true
    · rw [if_pos ha, List.map_cons, List.map_cons, List.count_cons, List.count_cons, ih]
      by_cases hap : a.2 = p
      · subst hap
        simp [ha]
      · have : (a.2 == p) = false := by simpa using hap
        simp [this]
    · rw [if_neg ha, List.map_cons, List.count_cons, ih]
      by_cases hap : a.2 = p
      · subst hap
        simp [ha]
      · have : (a.2 == p) = false := by simpa using hap
        simp [this]

/-- **C137** (optimiser groups).  For any module whose names refer to parameter objects, each object that requires a gradient is in exactly
one group exactly once, whatever the number of names it has: with weight decay if it has two or more dimensions, without otherwise.  Objects
that require no gradient are in neither. -/
theorem C137_groups (reg : List (PName × Param)) (hc : ∀ z ∈ reg, ∀ z' ∈ reg, z.2.ident = z'.2.ident → z.2 = z'.2)
    (grad : PName → Bool) (p : Param) :
    (groups reg grad).1.count p = (if p ∈ reg.map (·.2) ∧ grad p.ident = true ∧ 2 ≤ p.shape.length then 1 else 0) ∧
    (groups reg grad).2.count p = (if p ∈ reg.map (·.2) ∧ grad p.ident = true ∧ p.shape.length < 2 then 1 else 0) := by
  have key : ∀ f : Param → Bool, ((((namedParameters [] reg).filter fun z => grad z.2.ident).filter fun z => f z.2).map (·.2)).count p =
      if p ∈ reg.map (·.2) ∧ grad p.ident = true ∧ f p = true then 1 else 0 := by
    intro f
    rw [filter_map_count _ f, filter_map_count _ (fun p => grad p.ident), named_count [] reg hc]
    by_cases h1 : f p = true <;> by_cases h2 : grad p.ident = true <;> by_cases h3 : p ∈ reg.map (·.2) <;> simp [h1, h2, h3]
  refine ⟨?_, ?_⟩
  · have := key fun p => decide (2 ≤ p.shape.length)
    simp only [decide_eq_true_eq] at this
    exact this
  · have := key fun p => decide (p.shape.length < 2)
    simp only [decide_eq_true_eq] at this
    exact this

theorem mem_blockParams (c : Cfg) (i : ℕ) (z : PName × Param) (hz : z ∈ blockParams c i) :
    ∃ q, z.1 = .block i q ∧ z.2.ident = .block i q ∧ z.2.shape = (match q with
      | .ln1w | .ln1b | .ln2w | .ln2b | .aprojb | .mprojb => [c.d]
      | .attnw => [3 * c.d, c.d] | .attnb => [3 * c.d] | .aprojw => [c.d, c.d]
      | .fcw => [4 * c.d, c.d] | .fcb => [4 * c.d] | .mprojw => [c.d, 4 * c.d]) := by
  unfold blockParams at hz
  cases hb : c.bias <;> simp only [hb, if_true, Bool.false_eq_true, if_false, List.append_nil, List.mem_append, List.mem_singleton] at hz
  · rcases hz with ((((((rfl | rfl) | rfl) | rfl) | rfl) | rfl)) <;> exact ⟨_, rfl, rfl, rfl⟩
  · rcases hz with ((((((((((((rfl | rfl) | rfl) | rfl) | rfl) | rfl) | rfl) | rfl) | rfl) | rfl) | rfl) | rfl)) <;>
      exact ⟨_, rfl, rfl, rfl⟩

theorem named_append (seen : List PName) (l r : List (PName × Param)) (hn : (l.map (·.2.ident)).Nodup)
    (hd : ∀ z ∈ l, z.2.ident ∉ seen) :
    ∃ seen', namedParameters seen (l ++ r) = l ++ namedParameters seen' r ∧ ∀ n, n ∈ seen' ↔ n ∈ seen ∨ n ∈ l.map (·.2.ident) := by
  induction l generalizing seen with
  | nil => exact ⟨seen, rfl, by simp⟩
  | cons a l ih =>
    obtain ⟨n, p⟩ := a
    rw [List.map_cons, List.nodup_cons] at hn
    obtain ⟨seen', h1, h2⟩ := ih (p.ident :: seen) hn.2 (by
      intro z hz hm
      rcases List.mem_cons.1 hm with h3 | h3
      · exact hn.1 (h3 ▸ List.mem_map_of_mem hz)
      · exact hd z (List.mem_cons_of_mem _ hz) h3)
    refine ⟨seen', ?_, ?_⟩
    · rw [List.cons_append]
      conv_lhs => unfold namedParameters
      rw [if_neg (hd (n, p) List.mem_cons_self), h1]
      rfl
    · intro m
      rw [h2, List.map_cons, List.mem_cons, List.mem_cons]
      tauto

/-- All registered names but the last. -/
def firstNames (c : Cfg) : List (PName × Param) :=
  [(.wte, ⟨.lmHead, [c.vocab, c.d]⟩), (.wpe, ⟨.wpe, [c.blockSize, c.d]⟩)] ++
    (List.range c.layers).flatMap (blockParams c) ++
    [(.lnfw, ⟨.lnfw, [c.d]⟩)] ++ (if c.bias then [(.lnfb, ⟨.lnfb, [c.d]⟩)] else [])

theorem block_idents (c : Cfg) (i : ℕ) : (blockParams c i).map (·.2.ident) = (if c.bias then
    [.block i .ln1w, .block i .ln1b, .block i .attnw, .block i .attnb, .block i .aprojw, .block i .aprojb, .block i .ln2w,
      .block i .ln2b, .block i .fcw, .block i .fcb, .block i .mprojw, .block i .mprojb] else
    [.block i .ln1w, .block i .attnw, .block i .aprojw, .block i .ln2w, .block i .fcw, .block i .mprojw]) := by
  unfold blockParams
  cases c.bias <;> rfl

theorem blocks_nodup (c : Cfg) : (((List.range c.layers).flatMap (blockParams c)).map (·.2.ident)).Nodup := by
  rw [List.map_flatMap, List.nodup_flatMap]
  refine ⟨?_, ?_⟩
  · intro i _
    rw [block_idents]
    cases c.bias <;> simp
  · refine List.nodup_range.imp ?_
    intro i j hij n hn hm
    obtain ⟨z, hz, rfl⟩ := List.mem_map.1 hn
    obtain ⟨z', hz', he⟩ := List.mem_map.1 hm
    obtain ⟨q, -, h1, -⟩ := mem_blockParams c i z hz
    obtain ⟨q', -, h2, -⟩ := mem_blockParams c j z' hz'
    simp only [h1, h2, PName.block.injEq] at he
    exact hij he.1.symm

theorem mem_blocks (c : Cfg) (n : PName) (hn : n ∈ ((List.range c.layers).flatMap (blockParams c)).map (·.2.ident)) :
    ∃ i q, n = .block i q := by
  obtain ⟨z, hz, rfl⟩ := List.mem_map.1 hn
  obtain ⟨i, -, hz⟩ := List.mem_flatMap.1 hz
  obtain ⟨q, -, h1, -⟩ := mem_blockParams c i z hz
  exact ⟨i, q, h1⟩

theorem first_nodup (c : Cfg) : ((firstNames c).map (·.2.ident)).Nodup := by
  have hb := blocks_nodup c
  have hm := mem_blocks c
  unfold firstNames
  simp only [List.map_append]
  revert hb hm
  generalize List.map (fun x : PName × Param => x.2.ident) ((List.range c.layers).flatMap (blockParams c)) = B
  intro hb hm
  have h1 : PName.lmHead ∉ B := fun h => by obtain ⟨i, q, h⟩ := hm _ h; cases h
  have h2 : PName.wpe ∉ B := fun h => by obtain ⟨i, q, h⟩ := hm _ h; cases h
  have h3 : PName.lnfw ∉ B := fun h => by obtain ⟨i, q, h⟩ := hm _ h; cases h
  have h4 : PName.lnfb ∉ B := fun h => by obtain ⟨i, q, h⟩ := hm _ h; cases h
  cases c.bias <;> simp [List.nodup_append, hb, h1, h2] <;> grind

theorem named_registered (c : Cfg) : namedParameters [] (registered c) = firstNames c := by
  obtain ⟨seen', h1, h2⟩ := named_append [] (firstNames c) [(.lmHead, ⟨.lmHead, [c.vocab, c.d]⟩)] (first_nodup c) (by simp)
  have hr : registered c = firstNames c ++ [(.lmHead, ⟨.lmHead, [c.vocab, c.d]⟩)] := rfl
  rw [hr, h1]
  have : PName.lmHead ∈ seen' := (h2 _).2 (Or.inr (by simp [firstNames]))
  simp [namedParameters, this]

/-- **C137** (number of parameters).  The tied embedding is counted once; without the position embeddings the count does not depend on the
block size. -/
theorem C137_count (c : Cfg) :
    numParams c false = c.vocab * c.d + c.blockSize * c.d +
      c.layers * (12 * c.d ^ 2 + if c.bias then 13 * c.d else 2 * c.d) + (if c.bias then 2 * c.d else c.d) ∧
    numParams c true = c.vocab * c.d + c.layers * (12 * c.d ^ 2 + if c.bias then 13 * c.d else 2 * c.d) +
      (if c.bias then 2 * c.d else c.d) := by
  have hblk : ∀ i, ((blockParams c i).map fun z => (z.2.numel : ℤ)).sum =
      12 * c.d ^ 2 + if c.bias then 13 * c.d else 2 * c.d := by
    intro i
    unfold blockParams
    cases c.bias <;> (simp [Param.numel]; ring)
  have hblks : ((((List.range c.layers).flatMap (blockParams c))).map fun z => (z.2.numel : ℤ)).sum =
      c.layers * (12 * c.d ^ 2 + if c.bias then 13 * c.d else 2 * c.d) := by
    rw [List.map_flatMap, List.flatMap, List.sum_flatten, List.map_map]
    have : (List.sum ∘ fun i => (blockParams c i).map fun z => (z.2.numel : ℤ)) =
        fun _ => 12 * (c.d : ℤ) ^ 2 + if c.bias then 13 * c.d else 2 * c.d := funext hblk
    rw [this]
    simp
  have htot : ((namedParameters [] (registered c)).map fun z => (z.2.numel : ℤ)).sum = c.vocab * c.d + c.blockSize * c.d +
      c.layers * (12 * c.d ^ 2 + if c.bias then 13 * c.d else 2 * c.d) + (if c.bias then 2 * c.d else c.d) := by
    rw [named_registered]
    unfold firstNames
    simp only [List.map_append, List.sum_append, hblks]
    cases c.bias <;> (simp [Param.numel]; try ring)
  unfold numParams
  simp only [htot]
  refine ⟨by simp, ?_⟩
  simp only [if_true]
  push_cast
  ring

open Classical in
/-- **C137** (what decays).  In the groups of the network the decayed objects are the tied embedding, the position embedding and the four
weight matrices of each block, once each; the others are the layer-norm weights and all biases, once each. -/
theorem C137_decayed (c : Cfg) (n : PName) :
    ((groups (registered c) fun _ => true).1.map (·.ident)).count n =
      (if n = .lmHead ∨ n = .wpe ∨ ∃ i q, i < c.layers ∧ q ∈ [Part.attnw, .aprojw, .fcw, .mprojw] ∧ n = .block i q then 1 else 0) ∧
    ((groups (registered c) fun _ => true).2.map (·.ident)).count n =
      (if n = .lnfw ∨ (c.bias = true ∧ n = .lnfb) ∨ ∃ i q, i < c.layers ∧ n = .block i q ∧ (q ∈ [Part.ln1w, .ln2w] ∨
        (c.bias = true ∧ q ∈ [Part.ln1b, .attnb, .aprojb, .ln2b, .fcb, .mprojb])) then 1 else 0) := by
  have key : ∀ f : Param → Bool, ((((firstNames c).filter fun z => f z.2).map (·.2)).map (·.ident)).count n =
      if ∃ z ∈ firstNames c, f z.2 = true ∧ z.2.ident = n then 1 else 0 := by
    intro f
    rw [List.map_map]
    have hnd : (((firstNames c).filter fun z => f z.2).map ((·.ident) ∘ (·.2))).Nodup :=
      (first_nodup c).sublist (List.filter_sublist.map _)
    rw [hnd.count]
    have : (n ∈ ((firstNames c).filter fun z => f z.2).map ((·.ident) ∘ (·.2))) ↔ ∃ z ∈ firstNames c, f z.2 = true ∧ z.2.ident = n := by
      simp only [List.mem_map, List.mem_filter, Function.comp_apply]
      constructor
      · rintro ⟨z, ⟨h1, h2⟩, h3⟩; exact ⟨z, h1, h2, h3⟩
      · rintro ⟨z, h1, h2, h3⟩; exact ⟨z, ⟨h1, h2⟩, h3⟩
    by_cases hx : ∃ z ∈ firstNames c, f z.2 = true ∧ z.2.ident = n
    · rw [if_pos hx, if_pos (this.2 hx)]
    · rw [if_neg hx, if_neg (fun h => hx (this.1 h))]
  have hmem : ∀ z, z ∈ firstNames c ↔ z = (.wte, ⟨.lmHead, [c.vocab, c.d]⟩) ∨ z = (.wpe, ⟨.wpe, [c.blockSize, c.d]⟩) ∨
      (∃ i < c.layers, z ∈ blockParams c i) ∨ z = (.lnfw, ⟨.lnfw, [c.d]⟩) ∨ (c.bias = true ∧ z = (.lnfb, ⟨.lnfb, [c.d]⟩)) := by
    intro z
    unfold firstNames
    cases c.bias <;> simp
  have hblk : ∀ i q, (∃ z ∈ blockParams c i, z.2.ident = .block i q) ↔
      (q ∈ [Part.attnw, .aprojw, .fcw, .mprojw, .ln1w, .ln2w] ∨ (c.bias = true ∧ q ∈ [Part.ln1b, .attnb, .aprojb, .ln2b, .fcb, .mprojb])) := by
    intro i q
    have : (∃ z ∈ blockParams c i, z.2.ident = .block i q) ↔ PName.block i q ∈ (blockParams c i).map (·.2.ident) := by
      rw [List.mem_map]
    rw [this, block_idents]
    cases c.bias <;> cases q <;> simp
  unfold groups
  rw [named_registered]
  simp only [List.filter_true]
  constructor
  · rw [key fun p => decide (2 ≤ p.shape.length)]
    congr 1
    rw [eq_iff_iff]
    constructor
    · rintro ⟨z, hz, hf, rfl⟩
      rcases (hmem z).1 hz with rfl | rfl | ⟨i, hi, hz⟩ | rfl | ⟨-, rfl⟩
      · exact Or.inl rfl
      · exact Or.inr (Or.inl rfl)
      · obtain ⟨q, -, h1, h2⟩ := mem_blockParams c i z hz
        refine Or.inr (Or.inr ⟨i, q, hi, ?_, h1⟩)
        rw [h2] at hf
        clear hmem hblk key hz h1 h2
        cases q <;> simp_all
      · simp at hf
      · simp at hf
    · rintro (rfl | rfl | ⟨i, q, hi, hq, rfl⟩)
      · exact ⟨_, (hmem _).2 (Or.inl rfl), by simp, rfl⟩
      · exact ⟨_, (hmem _).2 (Or.inr (Or.inl rfl)), by simp, rfl⟩
      · obtain ⟨z, hz, he⟩ := (hblk i q).2 (Or.inl (by simp only [List.mem_cons, List.not_mem_nil, or_false] at hq ⊢; tauto))
        refine ⟨z, (hmem z).2 (Or.inr (Or.inr (Or.inl ⟨i, hi, hz⟩))), ?_, he⟩
        obtain ⟨q', -, h1, h2⟩ := mem_blockParams c i z hz
        rw [h1, PName.block.injEq] at he
        obtain ⟨-, rfl⟩ := he
        rw [h2]
        clear hmem hblk key hz h1 h2
        cases q' <;> simp_all
  · rw [key fun p => decide (p.shape.length < 2)]
    congr 1
    rw [eq_iff_iff]
    constructor
    · rintro ⟨z, hz, hf, rfl⟩
      rcases (hmem z).1 hz with rfl | rfl | ⟨i, hi, hz⟩ | rfl | ⟨hb, rfl⟩
      · simp at hf
      · simp at hf
      · obtain ⟨q, -, h1, h2⟩ := mem_blockParams c i z hz
        refine Or.inr (Or.inr ⟨i, q, hi, h1, ?_⟩)
        have h3 := (hblk i q).1 ⟨z, hz, h1⟩
        rw [h2] at hf
        clear hmem hblk key hz h1 h2
        cases q <;> simp_all
      · exact Or.inl rfl
      · exact Or.inr (Or.inl ⟨hb, rfl⟩)
    · rintro (rfl | ⟨hb, rfl⟩ | ⟨i, q, hi, rfl, hq⟩)
      · exact ⟨_, (hmem _).2 (Or.inr (Or.inr (Or.inr (Or.inl rfl)))), by simp, rfl⟩
      · exact ⟨_, (hmem _).2 (Or.inr (Or.inr (Or.inr (Or.inr ⟨hb, rfl⟩)))), by simp, rfl⟩
      · obtain ⟨z, hz, he⟩ := (hblk i q).2 (by
          rcases hq with hq | hq
          · left; simp only [List.mem_cons, List.not_mem_nil, or_false] at hq ⊢; tauto
          · right; exact hq)
        refine ⟨z, (hmem z).2 (Or.inr (Or.inr (Or.inl ⟨i, hi, hz⟩))), ?_, he⟩
        obtain ⟨q', -, h1, h2⟩ := mem_blockParams c i z hz
        rw [h1, PName.block.injEq] at he
        obtain ⟨-, rfl⟩ := he
        rw [h2]
        clear hmem hblk key hz h1 h2
        cases q' <;> simp_all

/-! ### Non-trivial cases -/

/-- A network with two tokens, one head of size one, one block, block size two and a mask buffer. -/
noncomputable def tiny : Net 1 1 2 where
  wte v := fun _ => if v = 0 then 1 else 2
  wpe := [0, 1]
  blocks := [⟨1, 0, ⟨⟨fun _ _ => 1, 0⟩, ⟨fun _ _ => 1, 0⟩, some 2⟩, 1, 0, ⟨fun _ _ => 1, 0⟩, ⟨fun _ _ => 1, 0⟩⟩]
  lnw := 1
  lnb := 1
  blockSize := 2

example : tiny.WF := ⟨rfl, by intro B hB; right; simp [tiny] at hB; rw [hB]; rfl⟩

example : asked (V := 2) [([0, 1], [some 1, none]), ([1], [some 0])] = [([0], 1), ([1], 0)] := by decide

/-- With a tie, `top_k = 1` keeps two tokens. -/
example : Kept (V := 3) ![1, 1, 0] (some 1) 0 ∧ Kept (V := 3) ![1, 1, 0] (some 1) 1 ∧ ¬ Kept (V := 3) ![1, 1, 0] (some 1) 2 := by
  refine ⟨?_, ?_, ?_⟩
  · rintro k' ⟨⟩
    have : (Finset.univ.filter fun w : Fin 3 => (![1, 1, 0] : Fin 3 → ℝ) 0 < ![1, 1, 0] w) = ∅ := by
      rw [Finset.filter_eq_empty_iff]
      intro w _
      fin_cases w <;> norm_num
    rw [this]
    simp
  · rintro k' ⟨⟩
    have : (Finset.univ.filter fun w : Fin 3 => (![1, 1, 0] : Fin 3 → ℝ) 1 < ![1, 1, 0] w) = ∅ := by
      rw [Finset.filter_eq_empty_iff]
      intro w _
      fin_cases w <;> norm_num
    rw [this]
    simp
  · intro hk
    have h1 := hk 1 rfl
    have : (0 : Fin 3) ∈ (Finset.univ.filter fun w : Fin 3 => (![1, 1, 0] : Fin 3 → ℝ) 2 < ![1, 1, 0] w) := by
      rw [Finset.mem_filter]
      exact ⟨Finset.mem_univ _, show (0 : ℝ) < 1 by norm_num⟩
    have := Finset.card_pos.2 ⟨_, this⟩
    omega

/-- The numbers of GPT-2. -/
example : numParams ⟨1024, 50257, 12, 768, true⟩ true = 123653376 ∧ numParams ⟨1024, 50257, 12, 768, true⟩ false = 124439808 := by
  constructor
  · rw [(C137_count _).2]; norm_num
  · rw [(C137_count _).1]; norm_num

end Verif.GPT
