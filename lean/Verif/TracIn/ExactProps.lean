import Verif.TRAK.PolyLemmas

/-!
# C242: with a normal projection a TracIn score takes no value with positive probability
-/

namespace Verif.TracIn

open Verif.Projection MeasureTheory ProbabilityTheory Finset

variable {X C : Type} {D : ℕ}

/-! ### Helper lemmas -/

/-- A score as a function of the random numbers. -/
noncomputable def rawScore (p : ℕ) (seed : ℤ) (steps : List ((C × ℕ) × ℝ)) (g h : C → Fin D → ℝ) (G : ℤ × ℕ × ℕ → ℝ) : ℝ :=
  (steps.map fun x => x.2 * ((∑ j : Fin p, (∑ a, g x.1.1 a * G (place p seed x.1.2 (a, j))) * ∑ a, h x.1.1 a * G (place p seed x.1.2 (a, j))) / p)).sum

/-- The score as a polynomial. -/
noncomputable def polyScore (p : ℕ) (seed : ℤ) (steps : List ((C × ℕ) × ℝ)) (g h : C → Fin D → ℝ) : MvPolynomial (ℤ × ℕ × ℕ) ℝ :=
  (steps.map fun x => MvPolynomial.C (x.2 / (p : ℝ)) * ∑ j : Fin p, (∑ a, MvPolynomial.C (g x.1.1 a) * MvPolynomial.X (place p seed x.1.2 (a, j))) *
    ∑ a, MvPolynomial.C (h x.1.1 a) * MvPolynomial.X (place p seed x.1.2 (a, j))).sum

lemma eval_polyScore (p : ℕ) (seed : ℤ) (steps : List ((C × ℕ) × ℝ)) (g h : C → Fin D → ℝ) (G : ℤ × ℕ × ℕ → ℝ) :
    MvPolynomial.eval G (polyScore p seed steps g h) = rawScore p seed steps g h G := by
  unfold polyScore rawScore
  rw [map_list_sum, List.map_map]
  refine congrArg List.sum (List.map_congr_left fun x _ => ?_)
  simp only [Function.comp, map_mul, map_sum, MvPolynomial.eval_C, MvPolynomial.eval_X]
  ring

lemma poly_ae_all (P : MvPolynomial (ℤ × ℕ × ℕ) ℝ) (G0 : ℤ × ℕ × ℕ → ℝ) (h : MvPolynomial.eval G0 P ≠ 0) :
    ∀ᵐ G ∂(noise .normal), MvPolynomial.eval G P ≠ 0 := by
  obtain ⟨s, q, rfl⟩ := MvPolynomial.exists_finset_rename P
  have hq : q ≠ 0 := by
    rintro rfl
    simp at h
  filter_upwards [TRAK.poly_ae (fun x : { x // x ∈ s } => (x : ℤ × ℕ × ℕ)) Subtype.val_injective q hq] with G hG
  rw [MvPolynomial.eval_rename]
  exact hG

/-- Numbers that vanish except in the first column of the first checkpoint's first block. -/
noncomputable def bump (seed : ℤ) (v : Fin D → ℝ) : ℤ × ℕ × ℕ → ℝ := fun q => if q.1 = seed ∧ q.2.2 = 0 then (if h : q.2.1 < D then v ⟨q.2.1, h⟩ else 0) else 0

lemma bump_later (seed seed' : ℤ) (v : Fin D → ℝ) (p k : ℕ) (h : seed < seed' + 100000 * k) (q : Fin D × Fin p) : bump seed v (place p seed' k q) = 0 := by
  unfold bump
  rw [if_neg]
  rintro ⟨h1, -⟩
  simp only [place] at h1
  have : (0 : ℤ) ≤ (((q.2 : ℕ) / min p 100 : ℕ) : ℤ) := Int.natCast_nonneg _
  generalize (((q.2 : ℕ) / min p 100 : ℕ) : ℤ) = b at *
  omega

lemma bump_first (seed : ℤ) (v : Fin D → ℝ) (p : ℕ) (a : Fin D) (j : Fin p) : bump seed v (place p seed 0 (a, j)) = if (j : ℕ) = 0 then v a else 0 := by
  unfold bump
  by_cases hj : (j : ℕ) = 0
  · simp [place, hj]
  · rw [if_neg, if_neg hj]
    rintro ⟨h1, h2⟩
    simp only [place] at h1 h2
    have h3 : ((j : ℕ) / min p 100 : ℕ) = 0 := by
      have : (((j : ℕ) / min p 100 : ℕ) : ℤ) = 0 := by
        generalize (((j : ℕ) / min p 100 : ℕ) : ℤ) = b at *
        simp at h1
        omega
      exact_mod_cast this
    have := Nat.div_add_mod (j : ℕ) (min p 100)
    rw [h3, h2] at this
    omega

lemma raw_later (p : ℕ) (seed seed' : ℤ) (steps : List ((C × ℕ) × ℝ)) (g h : C → Fin D → ℝ) (v : Fin D → ℝ) (hs : ∀ x ∈ steps, seed < seed' + 100000 * (x.1.2 : ℤ)) :
    rawScore p seed' steps g h (bump seed v) = 0 := by
  refine List.sum_eq_zero fun y hy => ?_
  obtain ⟨x, hx, rfl⟩ := List.mem_map.1 hy
  simp [bump_later seed seed' v p x.1.2 (hs x hx)]

lemma raw_first (p : ℕ) (hp : 0 < p) (seed : ℤ) (c : C) (w : ℝ) (steps : List ((C × ℕ) × ℝ)) (g h : C → Fin D → ℝ) (v : Fin D → ℝ) (hs : ∀ x ∈ steps, 0 < x.1.2) :
    rawScore p seed (((c, 0), w) :: steps) g h (bump seed v) = w * ((∑ a, g c a * v a) * (∑ a, h c a * v a) / p) := by
  have h1 := raw_later p seed seed steps g h v fun x hx => by have := hs x hx; omega
  unfold rawScore at h1 ⊢
  rw [List.map_cons, List.sum_cons, h1, add_zero]
  refine congrArg (fun t => w * (t / (p : ℝ))) ?_
  rw [Finset.sum_eq_single (⟨0, hp⟩ : Fin p)]
  · simp [bump_first]
  · intro j _ hj
    have : (j : ℕ) ≠ 0 := fun e => hj (Fin.ext e)
    simp [bump_first, this]
  · simp

/-- Some direction is orthogonal to neither of two non-zero vectors. -/
lemma exists_dir (g h : Fin D → ℝ) (hg : g ≠ 0) (hh : h ≠ 0) : ∃ v : Fin D → ℝ, (∑ a, g a * v a) * (∑ a, h a * v a) ≠ 0 := by
  have pos : ∀ u : Fin D → ℝ, u ≠ 0 → ∑ a, u a * u a ≠ 0 := fun u hu h0 => hu (dotProduct_self_eq_zero.1 h0)
  by_cases h0 : ∑ a, g a * h a = 0
  · refine ⟨g + h, ?_⟩
    have h1 : ∑ a, h a * g a = 0 := by rw [← h0]; exact sum_congr rfl fun a _ => mul_comm _ _
    simp only [Pi.add_apply, mul_add, sum_add_distrib, h0, h1, add_zero, zero_add]
    exact mul_ne_zero (pos g hg) (pos h hh)
  · refine ⟨h, mul_ne_zero h0 (pos h hh)⟩

lemma rest_pos (cs : List C) (ws : List ℝ) : ∀ x ∈ (cs.zipIdx 1).zip ws, 0 < x.1.2 := by
  intro x hx
  have h1 := (List.of_mem_zip (a := x.1) (b := x.2) hx).1
  exact (List.mem_zipIdx h1).1

lemma steps_cons (A : PAttributor X C D) (c : C) (cs : List C) (w : ℝ) (ws : List ℝ) (hc : A.ckpts = c :: cs) (hw : A.weights = w :: ws) :
    A.steps = ((c, 0), w) :: (cs.zipIdx 1).zip ws := by
  simp [PAttributor.steps, hc, hw]

lemma scores_raw (pyInt : List Char → Option ℤ) (base : Env) (A : PAttributor X C D) (hdev : A.dev = .cpu) (hk : A.params.ptype = .normal)
    (hn : A.normalized = false) (hp : 0 < A.params.projDim) (hl : A.ckpts.length = A.weights.length) (tr te : Loader X)
    (h1 : 0 < tr.bs) (h2 : 0 < te.bs) (s1 : tr.supported = true) (s2 : te.supported = true) (G : ℤ × ℕ × ℕ → ℝ) :
    ∃ M, attributeP pyInt (envOf base G) A tr te = .ok M ∧ M.r = tr.data.length ∧ M.c = te.data.length ∧
      ∀ (i : Fin tr.data.length) (j : Fin te.data.length), M.f i j = rawScore A.params.projDim A.params.seed A.steps
        (fun c => A.gLoss c tr.data[i]) (fun c => A.gTarget c te.data[j]) G := by
  obtain ⟨⟨M, e, r, c, f⟩, -⟩ := C238_scores pyInt (envOf base G) A hdev (by rw [hk]; simp) hp hl tr te h1 h2 s1 s2
  refine ⟨M, e, r, c, fun i j => ?_⟩
  rw [f i i.2 j j.2]
  unfold rawScore
  refine congrArg List.sum (List.map_congr_left fun x _ => ?_)
  simp only [rowScore, hn, Bool.false_eq_true, if_false]
  rw [row_dot base A (.inl hk)]
  rfl

/-! ### C242 -/

section
variable (pyInt : List Char → Option ℤ) (base : Env) (A : PAttributor X C D) (hdev : A.dev = .cpu) (hk : A.params.ptype = .normal)
  (hn : A.normalized = false) (hp : 0 < A.params.projDim) (hl : A.ckpts.length = A.weights.length) (tr te : Loader X)
  (h1 : 0 < tr.bs) (h2 : 0 < te.bs) (s1 : tr.supported = true) (s2 : te.supported = true)
  (c : C) (cs : List C) (w : ℝ) (ws : List ℝ) (hc : A.ckpts = c :: cs) (hw : A.weights = w :: ws) (hw0 : w ≠ 0)
include hdev hk hn hp hl h1 h2 s1 s2 hc hw hw0

/-- **C242** (no value is certain). With a normal projection, if the two samples' gradients at the first checkpoint and its weight are not zero, then for each number `t`
the score is almost surely different from `t`; in particular it almost surely differs from the score without projection, however large `proj_dim` is. -/
theorem C242_value (i : Fin tr.data.length) (j : Fin te.data.length) (hg : A.gLoss c tr.data[i] ≠ 0) (hh : A.gTarget c te.data[j] ≠ 0) (t : ℝ) :
    ∀ᵐ G ∂(noise .normal), ∃ M, attributeP pyInt (envOf base G) A tr te = .ok M ∧ M.f i j ≠ t := by
  let g : C → Fin D → ℝ := fun c => A.gLoss c tr.data[i]
  let h : C → Fin D → ℝ := fun c => A.gTarget c te.data[j]
  obtain ⟨v, hv⟩ := exists_dir (g c) (h c) hg hh
  have hst := steps_cons A c cs w ws hc hw
  have hp' : (A.params.projDim : ℝ) ≠ 0 := by positivity
  have hex : ∃ G0, MvPolynomial.eval G0 (polyScore A.params.projDim A.params.seed A.steps g h - MvPolynomial.C t) ≠ 0 := by
    simp only [map_sub, MvPolynomial.eval_C, eval_polyScore, sub_ne_zero]
    by_cases ht : t = 0
    · refine ⟨bump A.params.seed v, ?_⟩
      rw [hst, raw_first _ hp _ _ _ _ _ _ _ (rest_pos cs ws), ht]
      exact mul_ne_zero hw0 (div_ne_zero hv hp')
    · refine ⟨fun _ => 0, ?_⟩
      rw [show rawScore A.params.projDim A.params.seed A.steps g h (fun _ => 0) = 0 from by simp [rawScore]]
      exact Ne.symm ht
  obtain ⟨G0, hG0⟩ := hex
  filter_upwards [poly_ae_all _ G0 hG0] with G hG
  obtain ⟨M, e, -, -, f⟩ := scores_raw pyInt base A hdev hk hn hp hl tr te h1 h2 s1 s2 G
  refine ⟨M, e, ?_⟩
  rw [f i j]
  simpa only [map_sub, MvPolynomial.eval_C, eval_polyScore, sub_ne_zero] using hG

/-- **C242** (no ties). Training samples with different gradients at the first checkpoint almost surely get different scores for a test sample, so the ranking of the training
samples is determined; without projection they tie whenever the difference of their gradients is orthogonal to the test gradient. -/
theorem C242_ties (i i' : Fin tr.data.length) (j : Fin te.data.length) (hg : A.gLoss c tr.data[i] ≠ A.gLoss c tr.data[i']) (hh : A.gTarget c te.data[j] ≠ 0) :
    ∀ᵐ G ∂(noise .normal), ∃ M, attributeP pyInt (envOf base G) A tr te = .ok M ∧ M.f i j ≠ M.f i' j := by
  let g : Fin tr.data.length → C → Fin D → ℝ := fun i c => A.gLoss c tr.data[i]
  let h : C → Fin D → ℝ := fun c => A.gTarget c te.data[j]
  obtain ⟨v, hv⟩ := exists_dir (g i c - g i' c) (h c) (sub_ne_zero.2 hg) hh
  have hst := steps_cons A c cs w ws hc hw
  have hp' : (A.params.projDim : ℝ) ≠ 0 := by positivity
  have h0 : MvPolynomial.eval (bump A.params.seed v) (polyScore A.params.projDim A.params.seed A.steps (g i) h - polyScore A.params.projDim A.params.seed A.steps (g i') h) ≠ 0 := by
    simp only [map_sub, eval_polyScore]
    rw [hst, raw_first _ hp _ _ _ _ _ _ _ (rest_pos cs ws), raw_first _ hp _ _ _ _ _ _ _ (rest_pos cs ws), ← mul_sub, ← sub_div, ← sub_mul, ← sum_sub_distrib]
    simp only [← sub_mul]
    exact mul_ne_zero hw0 (div_ne_zero hv hp')
  filter_upwards [poly_ae_all _ _ h0] with G hG
  obtain ⟨M, e, -, -, f⟩ := scores_raw pyInt base A hdev hk hn hp hl tr te h1 h2 s1 s2 G
  refine ⟨M, e, ?_⟩
  rw [f i j, f i' j]
  simpa only [map_sub, eval_polyScore, sub_ne_zero] using hG

/-- **C242** (seeds). The same attributor with another, larger seed almost surely gives another score. -/
theorem C242_seeds (A' : PAttributor X C D) (hA : A'.gLoss = A.gLoss ∧ A'.gTarget = A.gTarget ∧ A'.ckpts = A.ckpts ∧ A'.weights = A.weights ∧ A'.normalized = A.normalized ∧ A'.dev = A.dev)
    (hk' : A'.params.ptype = .normal) (hp' : 0 < A'.params.projDim) (hs : A.params.seed < A'.params.seed)
    (i : Fin tr.data.length) (j : Fin te.data.length) (hg : A.gLoss c tr.data[i] ≠ 0) (hh : A.gTarget c te.data[j] ≠ 0) :
    ∀ᵐ G ∂(noise .normal), ∃ M M', attributeP pyInt (envOf base G) A tr te = .ok M ∧ attributeP pyInt (envOf base G) A' tr te = .ok M' ∧ M'.f i j ≠ M.f i j := by
  let g : C → Fin D → ℝ := fun c => A.gLoss c tr.data[i]
  let h : C → Fin D → ℝ := fun c => A.gTarget c te.data[j]
  obtain ⟨v, hv⟩ := exists_dir (g c) (h c) hg hh
  obtain ⟨a1, a2, a3, a4, a5, a6⟩ := hA
  have hst := steps_cons A c cs w ws hc hw
  have hpp : (A.params.projDim : ℝ) ≠ 0 := by positivity
  have h0 : MvPolynomial.eval (bump A.params.seed v) (polyScore A'.params.projDim A'.params.seed A'.steps g h - polyScore A.params.projDim A.params.seed A.steps g h) ≠ 0 := by
    simp only [map_sub, eval_polyScore]
    rw [raw_later _ _ _ A'.steps _ _ _ fun x _ => by omega, hst, raw_first _ hp _ _ _ _ _ _ _ (rest_pos cs ws), zero_sub, neg_ne_zero]
    exact mul_ne_zero hw0 (div_ne_zero hv hpp)
  filter_upwards [poly_ae_all _ _ h0] with G hG
  obtain ⟨M, e, -, -, f⟩ := scores_raw pyInt base A hdev hk hn hp hl tr te h1 h2 s1 s2 G
  obtain ⟨M', e', -, -, f'⟩ := scores_raw pyInt base A' (a6.trans hdev) hk' (a5.trans hn) hp' (by rw [a3, a4]; exact hl) tr te h1 h2 s1 s2 G
  refine ⟨M, M', e, e', ?_⟩
  rw [f i j, f' i j, a1, a2]
  simpa only [map_sub, eval_polyScore, sub_ne_zero] using hG

end

/-! ### The hypotheses are met -/

/-- The default attributor of `exAttr`: the score of `(1, 0)` with itself is almost surely not `3/10`, which it is without projection. -/
example (pyInt : List Char → Option ℤ) (base : Env) : ∀ᵐ G ∂(noise .normal), ∃ M, attributeP pyInt (envOf base G) exAttr
    ⟨[((1 : ℝ), (0 : ℝ))], 1, true⟩ ⟨[((1 : ℝ), (0 : ℝ))], 1, true⟩ = .ok M ∧ M.f 0 0 ≠ 3 / 10 := by
  have hne : (fun _ : Fin 1 => ((1 : ℝ) * 1 - 0) * 1) ≠ 0 := fun h => by simpa using congrFun h 0
  exact C242_value pyInt base exAttr rfl rfl rfl (by show 0 < 512; norm_num) rfl ⟨[((1 : ℝ), (0 : ℝ))], 1, true⟩ ⟨[((1 : ℝ), (0 : ℝ))], 1, true⟩ (by decide) (by decide) rfl rfl
    1 [2] (1 / 10) [1 / 20] rfl rfl (by norm_num) ⟨0, by simp⟩ ⟨0, by simp⟩ hne hne (3 / 10)

/-- Seeds 0 and 7. -/
example (pyInt : List Char → Option ℤ) (base : Env) : ∀ᵐ G ∂(noise .normal), ∃ M M', attributeP pyInt (envOf base G) exAttr
    ⟨[((1 : ℝ), (0 : ℝ))], 1, true⟩ ⟨[((1 : ℝ), (0 : ℝ))], 1, true⟩ = .ok M ∧ attributeP pyInt (envOf base G) { exAttr with projParams := some { seed := 7 } }
    ⟨[((1 : ℝ), (0 : ℝ))], 1, true⟩ ⟨[((1 : ℝ), (0 : ℝ))], 1, true⟩ = .ok M' ∧ M'.f 0 0 ≠ M.f 0 0 := by
  have hne : (fun _ : Fin 1 => ((1 : ℝ) * 1 - 0) * 1) ≠ 0 := fun h => by simpa using congrFun h 0
  exact C242_seeds pyInt base exAttr rfl rfl rfl (by show 0 < 512; norm_num) rfl ⟨[((1 : ℝ), (0 : ℝ))], 1, true⟩ ⟨[((1 : ℝ), (0 : ℝ))], 1, true⟩ (by decide) (by decide) rfl rfl
    1 [2] (1 / 10) [1 / 20] rfl rfl (by norm_num) { exAttr with projParams := some { seed := 7 } } ⟨rfl, rfl, rfl, rfl, rfl, rfl⟩ rfl (by show 0 < 512; norm_num)
    (by show (0 : ℤ) < 7; norm_num) ⟨0, by simp⟩ ⟨0, by simp⟩ hne hne

end Verif.TracIn
