import Verif.Bench.ResNetProps

/-! # C153: ResNet-9 in training mode -/

namespace Verif.ResNet

open Verif

variable {i o c d₀ d₁ d₂ d₃ d₄ : ℕ}

/-! ### Helper lemmas: one image -/

theorem bn_one_err (N : BN c) (x : Planes c) : N.app true ⟨1, 1, [x]⟩ = .error .valueError := by
  unfold BN.app
  simp

theorem bn_one_ok (N : BN c) (h w : ℕ) (hs : ¬ (h = 1 ∧ w = 1)) (x : Planes c) : ∃ y N', N.app true ⟨h, w, [x]⟩ = .ok (⟨h, w, [y]⟩, N') := by
  obtain ⟨f, N', -, hf⟩ := bn_ok true N h w [x] fun _ => by
    rw [Ne, mul_mul_eq_one]
    exact fun hc => hs hc.2
  exact ⟨f x, N', hf [x] (Same.refl _ _)⟩

theorem dropout_one (p : ℝ) (u : Draws) (h w : ℕ) (x : Planes c) : ∃ y, dropout true p u ⟨h, w, [x]⟩ = ⟨h, w, [y]⟩ :=
  ⟨_, by unfold dropout; rw [if_pos rfl]; rfl⟩

theorem block_one_err (p : ℝ) (st : ℕ) (K : Block i o) (u : ℕ → Draws) (h w : ℕ) (hh : 0 < h) (hw : 0 < w) (x : Planes i)
    (hs : (h - 1) / st + 1 = 1 ∧ (w - 1) / st + 1 = 1) : K.forward true p st u ⟨h, w, [x]⟩ = .error .valueError := by
  unfold Block.forward
  rw [conv3_ok st _ h w hh hw, hs.1, hs.2]
  simp only [bind, Except.bind, List.map_cons, List.map_nil]
  rw [bn_one_err]

theorem block_one_ok (p : ℝ) (st : ℕ) (K : Block i o) (u : ℕ → Draws) (h w : ℕ) (hh : 0 < h) (hw : 0 < w) (x : Planes i)
    (hs : ¬ ((h - 1) / st + 1 = 1 ∧ (w - 1) / st + 1 = 1)) :
    ∃ y K', K.forward true p st u ⟨h, w, [x]⟩ = .ok (⟨(h - 1) / st + 1, (w - 1) / st + 1, [y]⟩, K') := by
  have hp1 : 0 < (h - 1) / st + 1 := Nat.succ_pos _
  have hp2 : 0 < (w - 1) / st + 1 := Nat.succ_pos _
  obtain ⟨y1, n1, e1⟩ := bn_one_ok K.bn1 _ _ hs (convOne 3 st 1 K.conv1 h w x)
  obtain ⟨y3, n3, e3⟩ := bn_one_ok K.sbn _ _ hs (convOne 1 st 0 K.sconv h w x)
  unfold Block.forward
  rw [conv3_ok st _ h w hh hw, conv1_ok st _ h w hh hw]
  generalize (h - 1) / st + 1 = h' at *
  generalize (w - 1) / st + 1 = w' at *
  simp only [bind, Except.bind, List.map_cons, List.map_nil]
  rw [e1]
  dsimp only
  rw [relu_map]
  obtain ⟨y1', e1'⟩ := dropout_one p (u 0) h' w' (fun k a b => max (y1 k a b) 0)
  simp only [List.map_cons, List.map_nil]
  rw [e1', conv3_ok 1 _ h' w' hp1 hp2]
  dsimp only
  rw [Nat.div_one, Nat.div_one, show h' - 1 + 1 = h' by omega, show w' - 1 + 1 = w' by omega]
  simp only [List.map_cons, List.map_nil]
  obtain ⟨y2, n2, e2⟩ := bn_one_ok K.bn2 _ _ hs (convOne 3 1 1 K.conv2 h' w' y1')
  rw [e2]
  dsimp only
  rw [relu_map, e3]
  simp only [List.map_cons, List.map_nil]
  obtain ⟨y2', e2'⟩ := dropout_one p (u 1) h' w' (fun k a b => max (y2 k a b) 0)
  obtain ⟨y3', e3'⟩ := dropout_one p (u 2) h' w' y3
  rw [e2', e3']
  unfold add
  rw [if_pos (by simp)]
  exact ⟨_, _, rfl⟩

/-- **C153** (small images). In training mode a batch of one image of at most four by four pixels raises `ValueError`, whatever the dropout. -/
theorem C153_train_small (N : Net d₀ d₁ d₂ d₃ d₄ c) (u : ℕ → ℕ → Draws) (x : Img) (hF : Fits d₀ [x]) (hs : x.h ≤ 4 ∧ x.w ≤ 4) :
    N.forward true u [x] = .error .valueError := by
  obtain ⟨-, hx⟩ := hF
  obtain ⟨hc, hh, hw, -⟩ := hx x (by simp)
  unfold Net.forward
  rw [collate_ok d₀ [x] x.h x.w (by simp) (by simpa using hc)]
  simp only [bind, Except.bind]
  rw [conv3_ok 1 _ _ _ hh hw]
  dsimp only
  rw [Nat.div_one, Nat.div_one, show x.h - 1 + 1 = x.h by omega, show x.w - 1 + 1 = x.w by omega]
  simp only [List.map_cons, List.map_nil]
  by_cases h1 : x.h = 1 ∧ x.w = 1
  · rw [h1.1, h1.2, bn_one_err]
  obtain ⟨y0, n0, e0⟩ := bn_one_ok N.bn1 x.h x.w h1 (convOne 3 1 1 N.conv1 x.h x.w (planes d₀ x))
  rw [e0]
  dsimp only
  rw [relu_map]
  simp only [List.map_cons, List.map_nil]
  obtain ⟨y0', e0'⟩ := dropout_one N.p (u 0 0) x.h x.w (fun k a b => max (y0 k a b) 0)
  rw [e0']
  obtain ⟨y1, l1, e1⟩ := block_one_ok N.p 1 N.layer1 (u 1) x.h x.w hh hw y0' (by omega)
  rw [e1]
  dsimp only
  rw [Nat.div_one, Nat.div_one, show x.h - 1 + 1 = x.h by omega, show x.w - 1 + 1 = x.w by omega]
  by_cases h2 : (x.h - 1) / 2 + 1 = 1 ∧ (x.w - 1) / 2 + 1 = 1
  · rw [block_one_err N.p 2 N.layer2 (u 2) x.h x.w hh hw y1 h2]
  obtain ⟨y2, l2, e2⟩ := block_one_ok N.p 2 N.layer2 (u 2) x.h x.w hh hw y1 h2
  rw [e2]
  dsimp only
  rw [block_one_err N.p 2 N.layer3 (u 3) _ _ (by omega) (by omega) y2 (by omega)]

/-! ### The other images matter -/

/-- Batch normalisation with weight 1 and bias 0 in training mode, on the first plane of two images of one pixel: the value of the first is `d / sqrt(d² + 1e-5)` for half the
difference `d`, the second its negative. -/
theorem bn_two (N : BN (c + 1)) (hw : N.weight 0 = 1) (hb : N.bias 0 = 0) (x y : Planes (c + 1)) :
    ∃ x' y' N', N.app true ⟨1, 1, [x, y]⟩ = .ok (⟨1, 1, [x', y']⟩, N') ∧
      x' 0 0 0 = (x 0 0 0 - y 0 0 0) / 2 / Real.sqrt (((x 0 0 0 - y 0 0 0) / 2) ^ 2 + 10 ^ (-5 : ℤ)) ∧ y' 0 0 0 = -x' 0 0 0 := by
  set m : Fin (c + 1) → ℝ := fun k => planeSum ⟨1, 1, [x, y]⟩ k id / ((2 * 1 * 1 : ℕ) : ℝ) with hm
  set v : Fin (c + 1) → ℝ := fun k => (planeSum ⟨1, 1, [x, y]⟩ k fun t => (t - m k) ^ 2) / ((2 * 1 * 1 : ℕ) : ℝ) with hv
  have h0 : ∃ N', N.app true ⟨1, 1, [x, y]⟩ = .ok (⟨1, 1, [normalise N m v x, normalise N m v y]⟩, N') := ⟨_, by
    unfold BN.app
    simp only [if_true]
    rw [if_neg (by simp)]
    rfl⟩
  obtain ⟨N', h0⟩ := h0
  have hm0 : m 0 = (x 0 0 0 + y 0 0 0) / 2 := by simp [hm, planeSum]
  have hv0 : v 0 = ((x 0 0 0 - y 0 0 0) / 2) ^ 2 := by
    simp only [hv, planeSum, hm0, List.map_cons, List.map_nil, List.sum_cons, List.sum_nil, Finset.sum_range_one]
    norm_num
    ring
  have hx : x 0 0 0 - m 0 = (x 0 0 0 - y 0 0 0) / 2 := by rw [hm0]; ring
  have hy : y 0 0 0 - m 0 = -((x 0 0 0 - y 0 0 0) / 2) := by rw [hm0]; ring
  refine ⟨_, _, N', h0, ?_, ?_⟩
  · simp only [normalise, hw, hb, hx, hv0, mul_one, add_zero]
  · simp only [normalise, hw, hb, hx, hy, hv0, mul_one, add_zero, neg_div]

theorem ratio_pos (d : ℝ) (hd : 0 < d) : 0 < d / Real.sqrt (d ^ 2 + 10 ^ (-5 : ℤ)) := div_pos hd (Real.sqrt_pos.2 (by positivity))

/-- The kernel all of whose output planes are the first input plane, summed over the window. -/
def firstPlane : Kernel (i + 1) (o + 1) := fun _ v _ _ => if v = 0 then 1 else 0

theorem conv3_pixel (st : ℕ) (x : Planes (i + 1)) : convOne 3 st 1 (firstPlane : Kernel (i + 1) (o + 1)) 1 1 x 0 0 0 = x 0 0 0 := by
  simp [convOne, padded, firstPlane, Finset.sum_range_succ]

theorem conv1_pixel (st : ℕ) (x : Planes (i + 1)) : convOne 1 st 0 (firstPlane : Kernel (i + 1) (o + 1)) 1 1 x 0 0 0 = x 0 0 0 := by
  simp [convOne, padded, firstPlane]

def bnInit : BN c := ⟨fun _ => 1, fun _ => 0, fun _ => 0, fun _ => 1⟩

def blockInit : Block (i + 1) (o + 1) := ⟨firstPlane, bnInit, firstPlane, bnInit, firstPlane, bnInit⟩

/-- Kernels that read the first plane, batch normalisation as initialised, no dropout, class scores that read the first plane. -/
def netInit : Net (d₀ + 1) (d₁ + 1) (d₂ + 1) (d₃ + 1) (d₄ + 1) (c + 1) :=
  ⟨0, firstPlane, bnInit, blockInit, blockInit, blockInit, fun _ k => if k = 0 then 1 else 0, fun _ => 0⟩

/-- An image of one pixel with `n` equal planes. -/
def pixel (n : ℕ) (a : ℝ) : Img := ⟨n, 1, 1, fun _ _ _ => a⟩

theorem noDrop (u : Draws) (hu : ∀ n k a b, 0 ≤ u n k a b) : NoDrop true 0 u := fun _ => ⟨rfl, hu⟩

/-- A block on two images of one pixel: a positive and a zero value if they differ, zeros if they are equal. -/
theorem block_two (st : ℕ) (u : ℕ → Draws) (hu : ∀ m n k a b, 0 ≤ u m n k a b) (x y : Planes (i + 1)) :
    ∃ x' y' K', (blockInit : Block (i + 1) (o + 1)).forward true 0 st u ⟨1, 1, [x, y]⟩ = .ok (⟨1, 1, [x', y']⟩, K') ∧
      (y 0 0 0 < x 0 0 0 → 0 < x' 0 0 0 ∧ y' 0 0 0 = 0) ∧ (x 0 0 0 = y 0 0 0 → x' 0 0 0 = 0 ∧ y' 0 0 0 = 0) := by
  set K : Block (i + 1) (o + 1) := blockInit with hK
  have hc : ∀ z : Planes (i + 1), convOne 3 st 1 K.conv1 1 1 z 0 0 0 = z 0 0 0 := conv3_pixel st
  have hc2 : ∀ z : Planes (o + 1), convOne 3 1 1 K.conv2 1 1 z 0 0 0 = z 0 0 0 := conv3_pixel 1
  have hc3 : ∀ z : Planes (i + 1), convOne 1 st 0 K.sconv 1 1 z 0 0 0 = z 0 0 0 := conv1_pixel st
  obtain ⟨x1, y1, n1, e1, hx1, hy1⟩ := bn_two K.bn1 rfl rfl (convOne 3 st 1 K.conv1 1 1 x) (convOne 3 st 1 K.conv1 1 1 y)
  obtain ⟨x2, y2, n2, e2, hx2, hy2⟩ := bn_two K.bn2 rfl rfl (convOne 3 1 1 K.conv2 1 1 fun k a b => max (x1 k a b) 0)
    (convOne 3 1 1 K.conv2 1 1 fun k a b => max (y1 k a b) 0)
  obtain ⟨x3, y3, n3, e3, hx3, hy3⟩ := bn_two K.sbn rfl rfl (convOne 1 st 0 K.sconv 1 1 x) (convOne 1 st 0 K.sconv 1 1 y)
  have hf : K.forward true 0 st u ⟨1, 1, [x, y]⟩ = .ok (⟨1, 1, [fun k a b => max (max (x2 k a b) 0 + x3 k a b) 0,
      fun k a b => max (max (y2 k a b) 0 + y3 k a b) 0]⟩, { K with bn1 := n1, bn2 := n2, sbn := n3 }) := by
    unfold Block.forward
    rw [conv3_ok st _ 1 1 one_pos one_pos, conv1_ok st _ 1 1 one_pos one_pos]
    simp only [bind, Except.bind, List.map_cons, List.map_nil, Nat.sub_self, Nat.zero_div, Nat.zero_add]
    rw [e1]
    dsimp only
    rw [relu_map, dropout_eq (noDrop _ (hu 0)), conv3_ok 1 _ 1 1 one_pos one_pos]
    simp only [List.map_cons, List.map_nil, Nat.sub_self, Nat.zero_div, Nat.zero_add]
    rw [e2]
    dsimp only
    rw [relu_map, dropout_eq (noDrop _ (hu 1)), e3]
    dsimp only
    rw [dropout_eq (noDrop _ (hu 2))]
    unfold add
    rw [if_pos (by simp)]
    rfl
  refine ⟨_, _, _, hf, fun hlt => ?_, fun heq => ?_⟩
  · simp only [hc, hc2, hc3] at hx1 hx2 hx3
    have p1 : 0 < x1 0 0 0 := by rw [hx1]; exact ratio_pos _ (by linarith)
    have p1' : max (x1 0 0 0) 0 - max (y1 0 0 0) 0 = x1 0 0 0 := by
      rw [max_eq_left p1.le, hy1, max_eq_right (by linarith), sub_zero]
    have p2 : 0 < x2 0 0 0 := by rw [hx2, p1']; exact ratio_pos _ (by linarith)
    have p3 : 0 < x3 0 0 0 := by rw [hx3]; exact ratio_pos _ (by linarith)
    refine ⟨lt_max_of_lt_left (by rw [max_eq_left p2.le]; linarith), max_eq_right ?_⟩
    rw [hy2, hy3, max_eq_right (by linarith)]
    linarith
  · simp only [hc, hc2, hc3, heq, sub_self, zero_div] at hx1 hx2 hx3
    have q1 : y1 0 0 0 = 0 := by rw [hy1, hx1, neg_zero]
    simp only [hx1, q1, sub_self, zero_div] at hx2
    have q2 : y2 0 0 0 = 0 := by rw [hy2, hx2, neg_zero]
    have q3 : y3 0 0 0 = 0 := by rw [hy3, hx3, neg_zero]
    exact ⟨by simp [hx2, hx3], by simp [q2, q3]⟩

/-- **C153** (training mode is not image-wise). For all numbers of planes, with weights chosen suitably: the scores of an image depend on the other images of the batch: next to an equal image it gets score 0, next to
a darker one a positive score. -/
theorem C153_train_depends (u : ℕ → ℕ → Draws) (hu : ∀ l m n k a b, 0 ≤ u l m n k a b) : ∃ z z' z₂ z₂' N₁ N₂,
    (netInit : Net (d₀ + 1) (d₁ + 1) (d₂ + 1) (d₃ + 1) (d₄ + 1) (c + 1)).forward true u [pixel (d₀ + 1) 1, pixel (d₀ + 1) 1] = .ok ([z, z₂], N₁) ∧
      (netInit : Net (d₀ + 1) (d₁ + 1) (d₂ + 1) (d₃ + 1) (d₄ + 1) (c + 1)).forward true u [pixel (d₀ + 1) 1, pixel (d₀ + 1) 0] = .ok ([z', z₂'], N₂) ∧
      z 0 = 0 ∧ 0 < z' 0 := by
  set N : Net (d₀ + 1) (d₁ + 1) (d₂ + 1) (d₃ + 1) (d₄ + 1) (c + 1) := netInit with hN
  have key : ∀ b : ℝ, ∃ z z₂ N₁, N.forward true u [pixel (d₀ + 1) 1, pixel (d₀ + 1) b] = .ok ([z, z₂], N₁) ∧ (b < 1 → 0 < z 0) ∧ (1 = b → z 0 = 0) := by
    intro b
    have hc : ∀ z : Planes (d₀ + 1), convOne 3 1 1 N.conv1 1 1 z 0 0 0 = z 0 0 0 := conv3_pixel 1
    obtain ⟨x0, y0, n0, e0, hx0, hy0⟩ := bn_two N.bn1 rfl rfl (convOne 3 1 1 N.conv1 1 1 (planes (d₀ + 1) (pixel (d₀ + 1) 1)))
      (convOne 3 1 1 N.conv1 1 1 (planes (d₀ + 1) (pixel (d₀ + 1) b)))
    obtain ⟨x1, y1, k1, e1, p1, q1⟩ := block_two 1 (u 1) (hu 1) (fun k a b => max (x0 k a b) 0) (fun k a b => max (y0 k a b) 0)
    obtain ⟨x2, y2, k2, e2, p2, q2⟩ := block_two 2 (u 2) (hu 2) x1 y1
    obtain ⟨x3, y3, k3, e3, p3, q3⟩ := block_two 2 (u 3) (hu 3) x2 y2
    have hf : N.forward true u [pixel (d₀ + 1) 1, pixel (d₀ + 1) b] = .ok ([N.head 1 1 x3, N.head 1 1 y3],
        { N with bn1 := n0, layer1 := k1, layer2 := k2, layer3 := k3 }) := by
      unfold Net.forward
      rw [collate_ok (d₀ + 1) _ 1 1 (by simp) (by simp [pixel])]
      simp only [bind, Except.bind]
      rw [conv3_ok 1 _ 1 1 one_pos one_pos]
      simp only [List.map_cons, List.map_nil, Nat.sub_self, Nat.zero_div, Nat.zero_add]
      rw [e0]
      dsimp only
      rw [relu_map, show N.p = 0 from rfl, dropout_eq (noDrop _ (hu 0 0))]
      simp only [List.map_cons, List.map_nil]
      rw [show N.layer1 = blockInit from rfl, show N.layer2 = blockInit from rfl, show N.layer3 = blockInit from rfl, e1]
      dsimp only
      rw [e2]
      dsimp only
      rw [e3]
      rfl
    have hz : N.head 1 1 x3 0 = x3 0 0 0 := by simp [Net.head, hN, netInit]
    refine ⟨_, _, _, hf, fun hb => ?_, fun hb => ?_⟩
    · rw [hz]
      simp only [hc, planes, pixel] at hx0
      have a0 : 0 < x0 0 0 0 := by rw [hx0]; exact ratio_pos _ (by linarith)
      have a1 := p1 (by rw [max_eq_left a0.le, hy0, max_eq_right (by linarith)]; exact a0)
      have a2 := p2 (by rw [a1.2]; exact a1.1)
      exact (p3 (by rw [a2.2]; exact a2.1)).1
    · rw [hz]
      simp only [hc, planes, pixel, ← hb, sub_self, zero_div] at hx0
      have a0 : y0 0 0 0 = 0 := by rw [hy0, hx0, neg_zero]
      have a1 := q1 (by rw [hx0, a0])
      have a2 := q2 (by rw [a1.1, a1.2])
      exact (q3 (by rw [a2.1, a2.2])).1
  obtain ⟨z, z₂, N₁, h1, -, h2⟩ := key 1
  obtain ⟨z', z₂', N₂, h3, h4, -⟩ := key 0
  exact ⟨z, z', z₂, z₂', N₁, N₂, h1, h3, h2 rfl, h4 one_pos⟩

/-- Acceptable batches, and one that is refused in training mode. -/
example : Fits 1 [pixel 1 1, pixel 1 0] ∧ Fits 1 [pixel 1 1] ∧ GoodBatch 1 1 [(pixel 1 1, 0), (pixel 1 0, -100)] := by
  refine ⟨⟨by simp, by simp [pixel]⟩, ⟨by simp, by simp [pixel]⟩, ⟨by simp, by simp [pixel]⟩, ?_⟩
  intro s hs
  simp only [List.mem_cons, List.not_mem_nil, or_false] at hs
  rcases hs with rfl | rfl
  · exact Or.inr ⟨le_refl _, by norm_num⟩
  · exact Or.inl rfl

end Verif.ResNet
