import Verif.Bench.MusicNetModel
import Verif.Bench.SkewProps
import Mathlib.Algebra.BigOperators.Field
import Mathlib.Algebra.Order.BigOperators.Ring.Finset
import Mathlib.Tactic.Linarith

/-! # C138: the MusicTransformer treats sequences separately and causally -/

namespace Verif.Music

open Verif Verif.Skew

/-! ### Specification

What the network computes for one sequence, position by position. -/

/-- The positions a position attends to. -/
def scope (mask : Bool) (T t : ℕ) : Finset ℕ := if mask then Finset.range (t + 1) else Finset.range T

/-- The score of head `a` between positions `i` and `j`: scaled query times key, plus scaled query times the embedding of the distance
`i - j`, which stands at that distance from the end of the table. -/
noncomputable def score (D : Dims) (L : Layer) (xs : ℕ → Row) (a i j : ℕ) : ℝ :=
  let q (m : ℕ) : ℝ := linear D.e L.inW L.inB (xs i) (a * D.s + m) * (1 / Real.sqrt D.s)
  (∑ m ∈ Finset.range D.s, q m * linear D.e L.inW L.inB (xs j) (D.e + (a * D.s + m))) +
    match L.er with
    | some Er => if j ≤ i then ∑ m ∈ Finset.range D.s, q m * Er.at' (Er.rows - 1 - (i - j)) m else 0
    | none => 0

/-- Attention of one sequence. -/
noncomputable def attend (D : Dims) (L : Layer) (T : ℕ) (mask : Bool) (xs : ℕ → Row) (t : ℕ) : Row :=
  linear D.e L.outW L.outB fun c => ∑ j ∈ scope mask T t,
    Real.exp (score D L xs (c / D.s) t j) / (∑ k ∈ scope mask T t, Real.exp (score D L xs (c / D.s) t k)) *
      linear D.e L.inW L.inB (xs j) (2 * D.e + c)

/-- A layer on one sequence. -/
noncomputable def layerOne (D : Dims) (L : Layer) (T : ℕ) (mask : Bool) (xs : ℕ → Row) (t : ℕ) : Row :=
  let x1 : Row := layerNorm D.e L.n1W L.n1B (fun c => xs t c + attend D L T mask xs t c)
  layerNorm D.e L.n2W L.n2B fun c => x1 c + linear D.ff L.l2W L.l2B (fun k => max (linear D.e L.l1W L.l1B x1 k) 0) c

/-- The logits of one sequence. -/
noncomputable def one (net : Net) (T : ℕ) (mask : Bool) (tok : ℕ → ℕ) (t : ℕ) : Row :=
  linear net.dims.e net.woutW net.woutB (layerNorm net.dims.e net.normW net.normB
    (net.layers.foldl (fun xs L => layerOne net.dims L T mask xs)
      (fun t c => net.emb (tok t) c + pe net.dims.e (if net.maxSeq = 1 then 0 else t) c) t))

/-- A network as constructed: heads and head size positive, at least one position, and relative embeddings, where there are any, one for
each position. -/
def Net.WF (net : Net) : Prop :=
  0 < net.dims.s ∧ 0 < net.dims.h ∧ 0 < net.maxSeq ∧ ∀ L ∈ net.layers, ∀ Er, L.er = some Er → Er.rows = net.maxSeq

/-! ### Helper lemmas -/

theorem mapM_all' {α β : Type} (f : α → Except Err β) (g : α → β) (l : List α) (hf : ∀ a ∈ l, f a = .ok (g a)) :
    l.mapM f = .ok (l.map g) := by
  induction l with
  | nil => rfl
  | cons a l ih =>
    rw [List.mapM_cons, hf a List.mem_cons_self, ih fun b hb => hf b (List.mem_cons_of_mem _ hb)]
    rfl

theorem linear_congr (n : ℕ) (w : ℕ → ℕ → ℝ) (b x y : Row) (h : ∀ c < n, x c = y c) : linear n w b x = linear n w b y := by
  unfold linear
  funext k
  congr 1
  apply Finset.sum_congr rfl
  intro m hm
  rw [h m (Finset.mem_range.1 hm)]

theorem view_idx {h s b a m : ℕ} (ha : a < h) (hm : m < s) :
    ((b * h + a) * s + m) / (h * s) = b ∧ ((b * h + a) * s + m) % (h * s) = a * s + m := by
  have hlt : a * s + m < h * s := by
    calc a * s + m < a * s + s := by omega
      _ = (a + 1) * s := by ring
      _ ≤ h * s := Nat.mul_le_mul_right s ha
  have e : (b * h + a) * s + m = (h * s) * b + (a * s + m) := by ring
  rw [e]
  constructor
  · rw [Nat.mul_add_div (by omega), Nat.div_eq_of_lt hlt, Nat.add_zero]
  · rw [Nat.mul_add_mod, Nat.mod_eq_of_lt hlt]

theorem out_idx {h s b c : ℕ} (hs : 0 < s) : (b * (h * s) + c) / s = b * h + c / s ∧ (b * (h * s) + c) % s = c % s := by
  have e : b * (h * s) + c = s * (b * h) + c := by ring
  rw [e]
  exact ⟨Nat.mul_add_div hs _ _, Nat.mul_add_mod _ _ _⟩

theorem logits_eq (D : Dims) (L : Layer) (T : ℕ) (hE : ∀ Er, L.er = some Er → T ≤ Er.rows) (x : ℕ → ℕ → Row) (n : ℕ) :
    ∃ g, L.logits D T x n = .ok g ∧ ∀ b a, a < D.h → n = b * D.h + a → ∀ i < T, ∀ j < T,
      g.at' i j = score D L (fun t => x t b) a i j := by
  have hq : ∀ b a, a < D.h → n = b * D.h + a → ∀ t, ∀ m < D.s,
      viewHeads D (fun t b c => L.part D 0 x t b c * (1 / Real.sqrt D.s)) t n m =
        linear D.e L.inW L.inB (x t b) (a * D.s + m) * (1 / Real.sqrt D.s) := by
    intro b a ha hn t m hm
    unfold viewHeads Layer.part
    obtain ⟨h1, h2⟩ := view_idx (b := b) ha hm
    rw [hn]
    unfold Dims.e at *
    rw [h1, h2]
    simp
  have hk : ∀ b a, a < D.h → n = b * D.h + a → ∀ t, ∀ m < D.s,
      viewHeads D (L.part D 1 x) t n m = linear D.e L.inW L.inB (x t b) (D.e + (a * D.s + m)) := by
    intro b a ha hn t m hm
    unfold viewHeads Layer.part
    obtain ⟨h1, h2⟩ := view_idx (b := b) ha hm
    rw [hn]
    unfold Dims.e at *
    rw [h1, h2]
    simp
  unfold Layer.logits score
  cases hL : L.er with
  | none =>
    refine ⟨_, rfl, ?_⟩
    intro b a ha hn i hi j hj
    simp only [dot, add_zero]
    apply Finset.sum_congr rfl
    intro m hm
    rw [Finset.mem_range] at hm
    rw [hq b a ha hn i m hm, hk b a ha hn j m hm]
  | some Er =>
    obtain ⟨g, hg, -, -, h1⟩ := C76_logits (q := (⟨T, D.s, fun t m => viewHeads D (fun t b c => L.part D 0 x t b c *
      (1 / Real.sqrt D.s)) t n m⟩ : Grid ℝ)) (k := ⟨T, D.s, fun t m => viewHeads D (L.part D 1 x) t n m⟩) (Er := Er) rfl (hE Er hL)
    refine ⟨g, hg, ?_⟩
    intro b a ha hn i hi j hj
    rw [h1 i hi j hj]
    congr 1
    · apply Finset.sum_congr rfl
      intro m hm
      simp only [Finset.mem_range] at hm
      simp only [hq b a ha hn i m hm, hk b a ha hn j m hm]
    · simp only
      split_ifs
      · apply Finset.sum_congr rfl
        intro m hm
        simp only [Finset.mem_range] at hm
        simp only [hq b a ha hn i m hm]
      · rfl

theorem attention_eq (D : Dims) (hs : 0 < D.s) (L : Layer) (T B : ℕ) (mask : Bool) (hE : ∀ Er, L.er = some Er → T ≤ Er.rows)
    (x : ℕ → ℕ → Row) :
    ∃ y, L.attention D T B mask x = .ok y ∧ ∀ t < T, ∀ b < B, y t b = attend D L T mask (fun t => x t b) t := by
  choose g hg hval using fun n => logits_eq D L T hE x n
  have hgs : (List.range (B * D.h)).mapM (fun n => L.logits D T x n) = .ok ((List.range (B * D.h)).map g) :=
    mapM_all' _ g _ fun n _ => hg n
  unfold Layer.attention
  rw [hgs]
  refine ⟨_, rfl, ?_⟩
  intro t ht b hb
  unfold attend
  apply linear_congr
  intro c hc
  have hcs : c / D.s < D.h := by
    rw [Nat.div_lt_iff_lt_mul hs]
    exact hc
  have hn : b * D.h + c / D.s < B * D.h := by
    calc b * D.h + c / D.s < b * D.h + D.h := by omega
      _ = (b + 1) * D.h := by ring
      _ ≤ B * D.h := Nat.mul_le_mul_right _ hb
  obtain ⟨h1, h2⟩ := out_idx (h := D.h) (b := b) (c := c) hs
  have h1' : (b * D.e + c) / D.s = b * D.h + c / D.s := h1
  have h2' : (b * D.e + c) % D.s = c % D.s := h2
  simp only [h1', h2', List.getElem?_map, List.getElem?_range hn, Option.map_some]
  have hv : ∀ j, viewHeads D (L.part D 2 x) j (b * D.h + c / D.s) (c % D.s) =
      linear D.e L.inW L.inB (x j b) (2 * D.e + c) := by
    intro j
    unfold viewHeads Layer.part
    obtain ⟨h3, h4⟩ := view_idx (b := b) hcs (Nat.mod_lt c hs)
    have h3' : ((b * D.h + c / D.s) * D.s + c % D.s) / D.e = b := h3
    have h4' : ((b * D.h + c / D.s) * D.s + c % D.s) % D.e = c / D.s * D.s + c % D.s := h4
    rw [h3', h4', Nat.div_add_mod' c D.s]
  have hterm : ∀ j < T, ((if (mask && decide (t < j)) = true then none else some ((g (b * D.h + c / D.s)).at' t j)) : Option ℝ).elim 0
      Real.exp = if j ∈ scope mask T t then Real.exp (score D L (fun t => x t b) (c / D.s) t j) else 0 := by
    intro j hj
    rw [hval (b * D.h + c / D.s) b (c / D.s) hcs rfl t ht j hj]
    unfold scope
    cases mask with
    | false => simp [hj]
    | true =>
      by_cases hjt : t < j
      · simp [hjt]
      · have : j < t + 1 := by omega
        simp [hjt, this]
  have hsub : scope mask T t ⊆ Finset.range T := by
    intro j hj
    unfold scope at hj
    cases mask <;> simp at hj ⊢ <;> omega
  have hsum : ∀ F : ℕ → ℝ, ∑ j ∈ Finset.range T, (if j ∈ scope mask T t then F j else 0) = ∑ j ∈ scope mask T t, F j := by
    intro F
    rw [← Finset.sum_filter]
    congr 1
    ext j
    rw [Finset.mem_filter]
    exact ⟨fun h => h.2, fun h => ⟨hsub h, h⟩⟩
  have hZ : ∑ m ∈ Finset.range T, ((if (mask && decide (t < m)) = true then none else
      some ((g (b * D.h + c / D.s)).at' t m)) : Option ℝ).elim 0 Real.exp =
      ∑ k ∈ scope mask T t, Real.exp (score D L (fun t => x t b) (c / D.s) t k) := by
    rw [← hsum]
    exact Finset.sum_congr rfl fun j hj => hterm j (Finset.mem_range.1 hj)
  rw [← hsum]
  apply Finset.sum_congr rfl
  intro j hj
  rw [Finset.mem_range] at hj
  unfold softmax
  rw [hZ, hterm j hj, hv]
  split_ifs <;> simp

theorem forward_eq (D : Dims) (hs : 0 < D.s) (L : Layer) (T B : ℕ) (mask : Bool) (hE : ∀ Er, L.er = some Er → T ≤ Er.rows)
    (x : ℕ → ℕ → Row) :
    ∃ y, L.forward D T B mask x = .ok y ∧ ∀ t < T, ∀ b < B, y t b = layerOne D L T mask (fun t => x t b) t := by
  obtain ⟨y, hy, h1⟩ := attention_eq D hs L T B mask hE x
  unfold Layer.forward
  rw [hy]
  refine ⟨_, rfl, ?_⟩
  intro t ht b hb
  simp only [layerOne, h1 t ht b hb]

/-- A layer depends on the rows in its scope only. -/
theorem layerOne_congr (D : Dims) (L : Layer) (T T' : ℕ) (mask : Bool) (xs xs' : ℕ → Row) (t : ℕ)
    (hsc : scope mask T t = scope mask T' t) (ht : xs t = xs' t) (hx : ∀ u ∈ scope mask T t, xs u = xs' u) :
    layerOne D L T mask xs t = layerOne D L T' mask xs' t := by
  have hscore : ∀ a, ∀ j ∈ scope mask T t, score D L xs a t j = score D L xs' a t j := by
    intro a j hj
    unfold score
    rw [ht, hx j hj]
  have : attend D L T mask xs t = attend D L T' mask xs' t := by
    unfold attend
    congr 1
    funext c
    rw [← hsc]
    have hZ : ∑ k ∈ scope mask T t, Real.exp (score D L xs (c / D.s) t k) =
        ∑ k ∈ scope mask T t, Real.exp (score D L xs' (c / D.s) t k) :=
      Finset.sum_congr rfl fun k hk => by rw [hscore _ k hk]
    rw [hZ]
    apply Finset.sum_congr rfl
    intro j hj
    rw [hscore _ j hj, hx j hj]
  unfold layerOne
  rw [this, ht]

theorem fold_eq (D : Dims) (hs : 0 < D.s) (Ls : List Layer) (T B : ℕ) (mask : Bool)
    (hE : ∀ L ∈ Ls, ∀ Er, L.er = some Er → T ≤ Er.rows) (x : ℕ → ℕ → Row) (xs : ℕ → ℕ → Row)
    (hx : ∀ t < T, ∀ b < B, x t b = xs b t) :
    ∃ y, Ls.foldlM (fun x L => L.forward D T B mask x) x = .ok y ∧
      ∀ t < T, ∀ b < B, y t b = Ls.foldl (fun xs L => layerOne D L T mask xs) (xs b) t := by
  induction Ls generalizing x xs with
  | nil => exact ⟨x, rfl, hx⟩
  | cons L Ls ih =>
    obtain ⟨y, hy, h1⟩ := forward_eq D hs L T B mask (hE L List.mem_cons_self) x
    obtain ⟨z, hz, h2⟩ := ih (fun L' h => hE L' (List.mem_cons_of_mem _ h)) y (fun b => layerOne D L T mask (xs b)) (by
      intro t ht b hb
      rw [h1 t ht b hb]
      apply layerOne_congr _ _ _ _ _ _ _ _ rfl (hx t ht b hb)
      intro u hu
      refine hx u ?_ b hb
      unfold scope at hu
      cases mask <;> simp at hu <;> omega)
    refine ⟨z, ?_, h2⟩
    rw [List.foldlM_cons, hy]
    exact hz

theorem one_causal (net : Net) (T T' : ℕ) (tok tok' : ℕ → ℕ) (t : ℕ) (h : ∀ u ≤ t, tok u = tok' u) :
    one net T true tok t = one net T' true tok' t := by
  have key : ∀ (Ls : List Layer) (xs xs' : ℕ → Row), (∀ u ≤ t, xs u = xs' u) → ∀ u ≤ t,
      Ls.foldl (fun xs L => layerOne net.dims L T true xs) xs u = Ls.foldl (fun xs L => layerOne net.dims L T' true xs) xs' u := by
    intro Ls
    induction Ls with
    | nil => intro xs xs' hx; exact hx
    | cons L Ls ih =>
      intro xs xs' hx
      apply ih
      intro u hu
      apply layerOne_congr _ _ _ _ _ _ _ _ rfl (hx u hu)
      intro v hv
      simp only [scope, if_true, Finset.mem_range] at hv
      exact hx v (by omega)
  unfold one
  rw [key net.layers _ (fun t c => net.emb (tok' t) c + pe net.dims.e (if net.maxSeq = 1 then 0 else t) c) (by
    intro u hu
    rw [h u hu]) t le_rfl]

/-! ### C138 -/

/-- **C138** (each sequence by itself).  On sequences of at most `max_sequence` tokens of the vocabulary, with and without mask, the
network gives for every sequence of a batch the logits it computes for that sequence alone, and they are those of the specification:
relative attention where the distance counts from the end of the embedding table. -/
theorem C138_separate (net : Net) (wf : net.WF) (T B : ℕ) (tok : ℕ → ℕ → ℕ) (mask : Bool)
    (htok : ∀ t < T, ∀ b < B, tok b t < net.vocab) (hT : T ≤ net.maxSeq) :
    ∃ y, net.forward T B tok mask = .ok y ∧ (∀ t < T, ∀ b < B, y t b = one net T mask (tok b) t) ∧
      ∀ b < B, ∃ y1, net.forward T 1 (fun _ => tok b) mask = .ok y1 ∧ ∀ t < T, y t b = y1 t 0 := by
  have key : ∀ (B : ℕ) (tok : ℕ → ℕ → ℕ), (∀ t < T, ∀ b < B, tok b t < net.vocab) →
      ∃ y, net.forward T B tok mask = .ok y ∧ ∀ t < T, ∀ b < B, y t b = one net T mask (tok b) t := by
    intro B tok htok
    obtain ⟨y, hy, h1⟩ := fold_eq net.dims wf.1 net.layers T B mask (by
      intro L hL Er hEr
      rw [wf.2.2.2 L hL Er hEr]
      exact hT) (fun t b c => net.emb (tok b t) c + pe net.dims.e (if net.maxSeq = 1 then 0 else t) c)
      (fun b t c => net.emb (tok b t) c + pe net.dims.e (if net.maxSeq = 1 then 0 else t) c) (fun _ _ _ _ => rfl)
    unfold Net.forward
    rw [if_neg (by
      rintro ⟨t, ht, b, hb, h2⟩
      have := htok t ht b hb
      omega), if_neg (by omega)]
    simp only [hy]
    refine ⟨_, rfl, ?_⟩
    intro t ht b hb
    simp only [h1 t ht b hb, one]
  obtain ⟨y, hy, h1⟩ := key B tok htok
  refine ⟨y, hy, h1, ?_⟩
  intro b hb
  obtain ⟨y1, hy1, h2⟩ := key 1 (fun _ => tok b) (fun t ht _ _ => htok t ht b hb)
  refine ⟨y1, hy1, fun t ht => ?_⟩
  rw [h1 t ht b hb, h2 t ht 0 (by omega)]

/-- **C138** (causality).  With the mask, the logits at a position depend on the tokens of the same sequence up to that position only: not
on later tokens, not on the length, not on the other sequences of the batch. -/
theorem C138_causal (net : Net) (wf : net.WF) (T T' B B' : ℕ) (tok tok' : ℕ → ℕ → ℕ)
    (htok : ∀ t < T, ∀ b < B, tok b t < net.vocab) (htok' : ∀ t < T', ∀ b < B', tok' b t < net.vocab)
    (hT : T ≤ net.maxSeq) (hT' : T' ≤ net.maxSeq) (b b' t : ℕ) (hb : b < B) (hb' : b' < B') (ht : t < T) (ht' : t < T')
    (h : ∀ u ≤ t, tok b u = tok' b' u) :
    ∃ y y', net.forward T B tok true = .ok y ∧ net.forward T' B' tok' true = .ok y' ∧ y t b = y' t b' := by
  obtain ⟨y, hy, h1, -⟩ := C138_separate net wf T B tok true htok hT
  obtain ⟨y', hy', h1', -⟩ := C138_separate net wf T' B' tok' true htok' hT'
  refine ⟨y, y', hy, hy', ?_⟩
  rw [h1 t ht b hb, h1' t ht' b' hb']
  exact one_causal net T T' (tok b) (tok' b') t h

/-- **C138** (errors).  Sequences longer than `max_sequence` raise `RuntimeError`, provided `max_sequence` is at least 2; tokens outside the
vocabulary raise `IndexError`. -/
theorem C138_errors (net : Net) (T B : ℕ) (tok : ℕ → ℕ → ℕ) (mask : Bool) :
    ((∃ t < T, ∃ b < B, net.vocab ≤ tok b t) → net.forward T B tok mask = .error .indexError) ∧
    ((∀ t < T, ∀ b < B, tok b t < net.vocab) → 2 ≤ net.maxSeq → net.maxSeq < T → net.forward T B tok mask = .error .runtimeError) := by
  constructor
  · intro h
    unfold Net.forward
    rw [if_pos h]
  · intro h h2 hT
    unfold Net.forward
    rw [if_neg (by
      rintro ⟨t, ht, b, hb, h3⟩
      have := h t ht b hb
      omega), if_pos (by omega)]

/-- A layer with one head of size one, used in a network with and without relative embeddings. -/
noncomputable def tinyLayer (er : Option (Grid ℝ)) : Layer :=
  ⟨fun _ _ => 1, 0, fun _ _ => 1, 0, er, fun _ _ => 1, 0, fun _ _ => 1, 0, 1, 0, 1, 0⟩

example : Net.WF ⟨⟨1, 1, 1⟩, 390, fun v _ => v, 4, [tinyLayer none, tinyLayer (some ⟨4, 1, fun m _ => m⟩)], 1, 0, fun _ _ => 1, 0⟩ := by
  refine ⟨by norm_num, by norm_num, by norm_num, ?_⟩
  intro L hL Er hE
  simp only [List.mem_cons, List.not_mem_nil, or_false] at hL
  rcases hL with rfl | rfl
  · cases hE
  · cases hE; rfl

end Verif.Music
