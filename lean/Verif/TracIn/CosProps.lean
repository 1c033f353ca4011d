import Verif.TracIn.ProjRandProps

/-!
# C240: normalised TracIn scores (Grad-Cos) under the random projection
-/

namespace Verif.TracIn

open Verif.Projection MeasureTheory ProbabilityTheory Finset

variable {X C : Type} {D : ℕ}

/-! ### Specification -/

/-- The cosine of two gradients. -/
noncomputable def cosine (g h : Fin D → ℝ) : ℝ := ip g h / (nrm g * nrm h)

/-! ### Helper lemmas -/

lemma cos_close {ε a b A B s S : ℝ} (h0 : 0 < ε) (h1 : ε < 1) (ha : 0 < a) (hb : 0 < b) (hA : 0 ≤ A) (hB : 0 ≤ B) (hs : |s| ≤ a * b)
    (hS : |S - s| ≤ ε * (a * b)) (hA2 : |A ^ 2 - a ^ 2| ≤ ε * a ^ 2) (hB2 : |B ^ 2 - b ^ 2| ≤ ε * b ^ 2) :
    |S / (A * B) - s / (a * b)| ≤ 2 * ε / (1 - ε) := by
  have hab : 0 < a * b := mul_pos ha hb
  obtain ⟨a1, a2⟩ := abs_le.1 hA2
  obtain ⟨b1, b2⟩ := abs_le.1 hB2
  have he : 0 < 1 - ε := by linarith
  have hlo : (1 - ε) * (a * b) ≤ A * B := by
    refine abs_le_of_sq_le_sq' ?_ (mul_nonneg hA hB) |>.2
    have := mul_le_mul (show (1 - ε) * a ^ 2 ≤ A ^ 2 by linarith) (show (1 - ε) * b ^ 2 ≤ B ^ 2 by linarith) (by positivity) (by positivity)
    nlinarith
  have hhi : A * B ≤ (1 + ε) * (a * b) := by
    refine abs_le_of_sq_le_sq' ?_ (by positivity) |>.2
    have := mul_le_mul (show A ^ 2 ≤ (1 + ε) * a ^ 2 by linarith) (show B ^ 2 ≤ (1 + ε) * b ^ 2 by linarith) (by positivity) (by positivity)
    nlinarith
  have hAB : 0 < A * B := lt_of_lt_of_le (mul_pos he hab) hlo
  have hnum : |S * (a * b) - A * B * s| ≤ 2 * ε * (a * b) ^ 2 := by
    have e : S * (a * b) - A * B * s = (S - s) * (a * b) + s * (a * b - A * B) := by ring
    rw [e]
    refine (abs_add_le _ _).trans ?_
    rw [abs_mul (S - s), abs_mul s, abs_of_pos hab]
    have h3 : |a * b - A * B| ≤ ε * (a * b) := abs_le.2 ⟨by linarith, by linarith⟩
    have h4 : |S - s| * (a * b) ≤ ε * (a * b) * (a * b) := mul_le_mul_of_nonneg_right hS hab.le
    have h5 : |s| * |a * b - A * B| ≤ (a * b) * (ε * (a * b)) := mul_le_mul hs h3 (abs_nonneg _) hab.le
    nlinarith
  rw [div_sub_div _ _ hAB.ne' hab.ne', abs_div, abs_of_pos (mul_pos hAB hab), div_le_div_iff₀ (mul_pos hAB hab) he]
  calc |S * (a * b) - A * B * s| * (1 - ε) ≤ 2 * ε * (a * b) ^ 2 * (1 - ε) := mul_le_mul_of_nonneg_right hnum he.le
    _ = 2 * ε * ((1 - ε) * (a * b) * (a * b)) := by ring
    _ ≤ 2 * ε * (A * B * (a * b)) := by
      refine mul_le_mul_of_nonneg_left (mul_le_mul_of_nonneg_right hlo hab.le) (by positivity)

lemma rowNorm_sq (u : List ℝ) : rowNorm u ^ 2 = rowDot u u := by
  have h : rowDot u u = (u.map (· ^ 2)).sum := by
    unfold rowDot
    refine congrArg List.sum ?_
    induction u with
    | nil => rfl
    | cons a u ih => rw [List.zipWith_cons_cons, List.map_cons, ih, pow_two]
  rw [h, rowNorm, Real.sq_sqrt (List.sum_nonneg fun x hx => by
    obtain ⟨y, -, rfl⟩ := List.mem_map.1 hx
    exact sq_nonneg y)]

lemma nrm_sq (g : Fin D → ℝ) : nrm g ^ 2 = ip g g := by
  rw [nrm, Real.sq_sqrt (sum_nonneg fun a _ => sq_nonneg _), ip]
  exact sum_congr rfl fun a _ => pow_two _

lemma ip_le (g h : Fin D → ℝ) : |ip g h| ≤ nrm g * nrm h := by
  rw [nrm, nrm, ← Real.sqrt_mul (sum_nonneg fun a _ => sq_nonneg _)]
  exact Real.abs_le_sqrt (sum_mul_sq_le_sq_mul_sq _ _ _)

lemma norm_pos {ε : ℝ} (g : Fin D → ℝ) (hg : (1e-24 : ℝ) ≤ (1 - ε) * nrm g ^ 2) : 0 < nrm g := by
  refine lt_of_le_of_ne (Real.sqrt_nonneg _) fun h => ?_
  rw [← h] at hg
  norm_num at hg

lemma norm_kept {ε : ℝ} (g : Fin D → ℝ) (w : List ℝ) (hg : (1e-24 : ℝ) ≤ (1 - ε) * nrm g ^ 2) (hw : |rowNorm w ^ 2 - nrm g ^ 2| ≤ ε * nrm g ^ 2) :
    max (rowNorm w) 1e-12 = rowNorm w := by
  refine max_eq_left (abs_le_of_sq_le_sq' ?_ (Real.sqrt_nonneg _)).2
  have h1 := (abs_le.1 hw).1
  have h2 : (1e-12 : ℝ) ^ 2 = 1e-24 := by norm_num
  rw [h2]
  show (1e-24 : ℝ) ≤ rowNorm w ^ 2
  linarith

/-! ### C240 -/

/-- **C240.** With `normalized_grad`, a `normal` or `rademacher` projection and gradients whose norm `|g|` satisfies `(1 - ε)|g|² ≥ 10⁻²⁴`: all scores are within
`2ε/(1-ε)` times the sum of the absolute weights of the weighted sum of the cosines of the gradients, except with probability at most
`4 (n m + n + m) C exp(-proj_dim ε² / 8)`. -/
theorem C240_cosine (pyInt : List Char → Option ℤ) (base : Env) (A : PAttributor X C D) (hdev : A.dev = .cpu)
    (hk : A.params.ptype = .normal ∨ A.params.ptype = .rademacher) (hp : 0 < A.params.projDim) (hn : A.normalized = true)
    (hl : A.ckpts.length = A.weights.length) (tr te : Loader X) (h1 : 0 < tr.bs) (h2 : 0 < te.bs) (s1 : tr.supported = true) (s2 : te.supported = true)
    (ε : ℝ) (h0 : 0 < ε) (hε : ε < 1)
    (hg : ∀ k ∈ A.ckpts, (∀ x ∈ tr.data, 1e-24 ≤ (1 - ε) * nrm (A.gLoss k x) ^ 2) ∧ ∀ x ∈ te.data, 1e-24 ≤ (1 - ε) * nrm (A.gTarget k x) ^ 2) :
    ∃ M : (ℤ × ℕ × ℕ → ℝ) → Mat ℝ, (∀ G, attributeP pyInt (envOf base G) A tr te = .ok (M G)) ∧
      (noise A.params.ptype).real {G | ∃ (i : Fin tr.data.length) (j : Fin te.data.length),
        2 * ε / (1 - ε) * (A.weights.map (|·|)).sum <
          |(M G).f i j - ((A.ckpts.zip A.weights).map fun x => x.2 * cosine (A.gLoss x.1 tr.data[i]) (A.gTarget x.1 te.data[j])).sum|} ≤
        4 * ((tr.data.length * te.data.length + tr.data.length + te.data.length) * A.ckpts.length) * Real.exp (-(A.params.projDim * ε ^ 2 / 8)) := by
  have hk' : A.params.ptype ≠ .sjlt ∧ A.params.ptype ≠ .grass := by rcases hk with h | h <;> rw [h] <;> decide
  choose M hM using fun G => (C238_scores pyInt (envOf base G) A hdev hk' hp hl tr te h1 h2 s1 s2).1
  have hz : A.ckpts.zip A.weights = A.steps.map fun x => (x.1.1, x.2) := by
    unfold PAttributor.steps
    have : A.ckpts = A.ckpts.zipIdx.map (·.1) := by simp
    conv_lhs => rw [this]
    rw [List.zip_map_left]
    rfl
  have hwt : A.weights = A.steps.map fun x => x.2 := by
    have : (A.ckpts.zip A.weights).map Prod.snd = A.weights := List.map_snd_zip hl.ge
    rw [← this, hz, List.map_map]
    rfl
  refine ⟨M, fun G => (hM G).1, ?_⟩
  have hlen : A.steps.length = A.ckpts.length := by simp [PAttributor.steps, hl]
  let fst : (Fin tr.data.length × Fin te.data.length) ⊕ Fin tr.data.length ⊕ Fin te.data.length → C → Fin D → ℝ := fun q k =>
    match q with
    | .inl q => A.gLoss k tr.data[q.1]
    | .inr (.inl i) => A.gLoss k tr.data[i]
    | .inr (.inr j) => A.gTarget k te.data[j]
  let snd : (Fin tr.data.length × Fin te.data.length) ⊕ Fin tr.data.length ⊕ Fin te.data.length → C → Fin D → ℝ := fun q k =>
    match q with
    | .inl q => A.gTarget k te.data[q.2]
    | .inr (.inl i) => A.gLoss k tr.data[i]
    | .inr (.inr j) => A.gTarget k te.data[j]
  have ht := union_tail (ι := ((Fin tr.data.length × Fin te.data.length) ⊕ Fin tr.data.length ⊕ Fin te.data.length) × Fin A.steps.length)
    (fun q => noise_entries (D := D) A.params.ptype hk A.params.projDim A.params.seed (A.steps[q.2]).1.2) hp
    (fun q => fst q.1 (A.steps[q.2]).1.1) (fun q => snd q.1 (A.steps[q.2]).1.1) h0 hε.le
  have hcard : (Fintype.card (((Fin tr.data.length × Fin te.data.length) ⊕ Fin tr.data.length ⊕ Fin te.data.length) × Fin A.steps.length) : ℝ) =
      (tr.data.length * te.data.length + tr.data.length + te.data.length) * A.ckpts.length := by
    simp only [Fintype.card_prod, Fintype.card_sum, Fintype.card_fin, hlen]
    push_cast
    ring
  rw [hcard] at ht
  refine le_trans (measureReal_mono ?_) ht
  rintro G ⟨i, j, hlt⟩
  by_contra hno
  simp only [Set.mem_ofPred_eq, not_exists, not_lt] at hno
  have hf : (M G).f i j = _ := (hM G).2.2.2 i i.2 j j.2
  rw [hf, hn, hz, hwt, List.map_map, List.map_map] at hlt
  have hd := dev_le A.steps (fun x => x.2) (fun x => rowScore true (A.row (envOf base G) x.1.2 (A.gLoss x.1.1 tr.data[i]))
      (A.row (envOf base G) x.1.2 (A.gTarget x.1.1 te.data[j])))
    (fun x => cosine (A.gLoss x.1.1 tr.data[i]) (A.gTarget x.1.1 te.data[j])) (fun _ => 2 * ε / (1 - ε)) (by
      intro x hx
      have hxc : x.1.1 ∈ A.ckpts := by
        have h3 : x.1 ∈ A.ckpts.zipIdx := (List.of_mem_zip (show ((x.1, x.2) : (C × ℕ) × ℝ) ∈ A.ckpts.zipIdx.zip A.weights from hx)).1
        exact List.mem_of_getElem? (List.mem_zipIdx_iff_getElem?.1 h3)
      obtain ⟨hgt, hge⟩ := hg _ hxc
      obtain ⟨s, hs, rfl⟩ := List.mem_iff_getElem.1 hx
      set k := (A.steps[s]).1.1
      set c := (A.steps[s]).1.2
      have q1 := hno (.inl (i, j), ⟨s, hs⟩)
      have q2 := hno (.inr (.inl i), ⟨s, hs⟩)
      have q3 := hno (.inr (.inr j), ⟨s, hs⟩)
      set u := A.row (envOf base G) c (A.gLoss k tr.data[i]) with hu
      set v := A.row (envOf base G) c (A.gTarget k te.data[j]) with hv
      have r1 : |rowDot u v - ip (A.gLoss k tr.data[i]) (A.gTarget k te.data[j])| ≤ ε * (nrm (A.gLoss k tr.data[i]) * nrm (A.gTarget k te.data[j])) := by
        rw [hu, hv, row_dot base A hk]
        exact q1
      have r2 : |rowNorm u ^ 2 - nrm (A.gLoss k tr.data[i]) ^ 2| ≤ ε * nrm (A.gLoss k tr.data[i]) ^ 2 := by
        have : |rowDot u u - ip (A.gLoss k tr.data[i]) (A.gLoss k tr.data[i])| ≤ ε * (nrm (A.gLoss k tr.data[i]) * nrm (A.gLoss k tr.data[i])) := by
          rw [hu, row_dot base A hk]
          exact q2
        rwa [rowNorm_sq, show ∀ g : Fin D → ℝ, |rowDot u u - nrm g ^ 2| = |rowDot u u - ip g g| from fun g => by rw [nrm_sq], pow_two]
      have r3 : |rowNorm v ^ 2 - nrm (A.gTarget k te.data[j]) ^ 2| ≤ ε * nrm (A.gTarget k te.data[j]) ^ 2 := by
        have : |rowDot v v - ip (A.gTarget k te.data[j]) (A.gTarget k te.data[j])| ≤ ε * (nrm (A.gTarget k te.data[j]) * nrm (A.gTarget k te.data[j])) := by
          rw [hv, row_dot base A hk]
          exact q3
        rwa [rowNorm_sq, show ∀ g : Fin D → ℝ, |rowDot v v - nrm g ^ 2| = |rowDot v v - ip g g| from fun g => by rw [nrm_sq], pow_two]
      have g1 := hgt tr.data[i] (List.getElem_mem _)
      have g2 := hge te.data[j] (List.getElem_mem _)
      show |rowScore true u v - cosine _ _| ≤ _
      rw [rowScore, if_pos rfl, norm_kept _ u g1 r2, norm_kept _ v g2 r3, cosine]
      exact cos_close h0 hε (norm_pos _ g1) (norm_pos _ g2) (Real.sqrt_nonneg _) (Real.sqrt_nonneg _) (ip_le _ _) r1 r2 r3)
  refine absurd hlt (not_lt.2 (hd.trans (le_of_eq ?_)))
  rw [← List.sum_map_mul_left]
  refine congrArg List.sum (List.map_congr_left fun x _ => ?_)
  simp only [Function.comp]
  ring

/-- Two checkpoints, gradients `(1, x)` with normalisation. -/
noncomputable def exCos : PAttributor ℝ ℝ 2 :=
  ⟨fun c x a => if a = 0 then c else x, fun c x a => if a = 0 then c else x, [1, 2], [1 / 10, -1 / 20], true, none, .cpu⟩

example (pyInt : List Char → Option ℤ) (base : Env) :
    ∃ M : (ℤ × ℕ × ℕ → ℝ) → Mat ℝ, (∀ G, attributeP pyInt (envOf base G) exCos ⟨[0, 3], 1, true⟩ ⟨[5], 1, true⟩ = .ok (M G)) ∧
      (noise .normal).real {G | ∃ (i : Fin 2) (j : Fin 1), 2 * (1 / 2) / (1 - 1 / 2) * (exCos.weights.map (|·|)).sum <
          |(M G).f i j - ((exCos.ckpts.zip exCos.weights).map fun x => x.2 * cosine (exCos.gLoss x.1 [(0 : ℝ), 3][i]) (exCos.gTarget x.1 [(5 : ℝ)][j])).sum|} ≤
        4 * (((2 : ℕ) * (1 : ℕ) + (2 : ℕ) + (1 : ℕ)) * (2 : ℕ)) * Real.exp (-(exCos.params.projDim * (1 / 2) ^ 2 / 8)) :=
  C240_cosine pyInt base exCos rfl (Or.inl rfl) (by show 0 < 512; norm_num) rfl rfl ⟨[0, 3], 1, true⟩ ⟨[5], 1, true⟩ (by simp) (by simp) rfl rfl (1 / 2)
    (by norm_num) (by norm_num) (by
      have : ∀ k ∈ exCos.ckpts, ∀ x : ℝ, (1e-24 : ℝ) ≤ (1 - 1 / 2) * (k ^ 2 + x ^ 2) := by
        intro k hk x
        have hk' : k = 1 ∨ k = 2 := by simpa [exCos] using hk
        rcases hk' with rfl | rfl <;> nlinarith [sq_nonneg x]
      have hn : ∀ k x : ℝ, nrm (exCos.gLoss k x) ^ 2 = k ^ 2 + x ^ 2 ∧ nrm (exCos.gTarget k x) ^ 2 = k ^ 2 + x ^ 2 := fun k x => by
        rw [nrm_sq, nrm_sq]
        simp [ip, exCos, Fin.sum_univ_two, pow_two]
      exact fun k hk => ⟨fun x _ => by rw [(hn k x).1]; exact this k hk x, fun x _ => by rw [(hn k x).2]; exact this k hk x⟩)

end Verif.TracIn
