import Verif.TracIn.ProjProps

/-!
# C238: TracIn scores over the random projections
-/

namespace Verif.TracIn

open Verif.Projection MeasureTheory ProbabilityTheory Finset

variable {X C : Type} {D : ℕ}

/-! ### The random numbers -/

/-- The law of one entry of a projection matrix: a fair sign or a standard normal variable. -/
noncomputable def law : Kind → Measure ℝ
  | .rademacher => (2⁻¹ : ENNReal) • Measure.dirac 1 + (2⁻¹ : ENNReal) • Measure.dirac (-1)
  | _ => gaussianReal 0 1

/-- What generators seeded with any number fill into matrices: independent entries for each seed, row and column. -/
noncomputable def noise (k : Kind) : Measure (ℤ × ℕ × ℕ → ℝ) := Measure.infinitePi fun _ => law k

/-- Generators on the CPU that fill matrices with the given numbers. -/
def envOf (base : Env) (G : ℤ × ℕ × ℕ → ℝ) : Env := { base with cpu := fun d => ⟨fun _ s a j => G (s, a, j), (base.cpu d).perm⟩ }

/-! ### Helper lemmas -/

instance (k : Kind) : IsProbabilityMeasure (law k) := by
  cases k <;> first
    | (show IsProbabilityMeasure (gaussianReal 0 1); infer_instance)
    | exact ⟨by simp [law, ENNReal.inv_two_add_inv_two]⟩

instance (k : Kind) : IsProbabilityMeasure (noise k) := by unfold noise; infer_instance

lemma integral_sign (f : ℝ → ℝ) : ∫ x, f x ∂(law .rademacher) = (f 1 + f (-1)) / 2 := by
  have hi : ∀ b : ℝ, Integrable f ((2⁻¹ : ENNReal) • Measure.dirac b) := fun b => (integrable_dirac (by simp)).smul_measure (by simp)
  rw [law, integral_add_measure (hi 1) (hi (-1)), integral_smul_measure, integral_smul_measure, integral_dirac, integral_dirac]
  simp
  ring

lemma integrable_sign (f : ℝ → ℝ) : Integrable f (law .rademacher) := by
  have hi : ∀ b : ℝ, Integrable f ((2⁻¹ : ENNReal) • Measure.dirac b) := fun b => (integrable_dirac (by simp)).smul_measure (by simp)
  exact (hi 1).add_measure (hi (-1))

lemma law_facts (k : Kind) (hk : k = .normal ∨ k = .rademacher) :
    HasSubgaussianMGF (fun x : ℝ => x) 1 (law k) ∧ ∫ x, x ∂(law k) = 0 ∧ ∫ x, x ^ 2 ∂(law k) = 1 := by
  rcases hk with rfl | rfl
  · show HasSubgaussianMGF (fun x : ℝ => x) 1 (gaussianReal 0 1) ∧ ∫ x, x ∂(gaussianReal 0 1) = 0 ∧ ∫ x, x ^ 2 ∂(gaussianReal 0 1) = 1
    refine ⟨⟨fun t => integrable_exp_mul_gaussianReal t, fun t => ?_⟩, integral_id_gaussianReal, ?_⟩
    · rw [show (fun x : ℝ => x) = id from rfl, mgf_id_gaussianReal]
      simp
    · have h := (gauss_entries (d := 1) (p := 1)).sq (0, 0)
      have := integral_comp_eval (μ := fun _ : Fin 1 × Fin 1 => gaussianReal 0 1) (i := (0, 0)) (f := fun x : ℝ => x ^ 2) (by fun_prop)
      rw [← this]
      exact h
  · refine ⟨⟨fun t => integrable_sign _, fun t => ?_⟩, ?_, ?_⟩
    · rw [mgf, integral_sign]
      have : (Real.exp (t * 1) + Real.exp (t * -1)) / 2 = Real.cosh t := by
        rw [Real.cosh_eq]
        simp
      rw [this]
      simpa using Real.cosh_le_exp_half_sq t
    · rw [integral_sign]
      simp
    · rw [integral_sign]
      norm_num

/-- The place of entry `(a, j)` of the matrix for checkpoint number `c`. -/
def place (p : ℕ) (seed : ℤ) (c : ℕ) (q : Fin D × Fin p) : ℤ × ℕ × ℕ :=
  (seed + 1000 * ((q.2 : ℕ) / min p 100 : ℕ) + 100000 * c, q.1, q.2 % min p 100)

lemma place_inj (p : ℕ) (seed : ℤ) (c : ℕ) : Function.Injective (place (D := D) p seed c) := by
  rintro ⟨a, j⟩ ⟨b, k⟩ h
  simp only [place, Prod.mk.injEq] at h
  obtain ⟨h1, h2, h3⟩ := h
  have h4 : ((j : ℕ) / min p 100 : ℕ) = ((k : ℕ) / min p 100 : ℕ) := by omega
  have h5 : (j : ℕ) = k := by rw [← Nat.div_add_mod (j : ℕ) (min p 100), ← Nat.div_add_mod (k : ℕ) (min p 100), h4, h3]
  rw [Fin.ext h2, Fin.ext h5]

lemma noise_entries (k : Kind) (hk : k = .normal ∨ k = .rademacher) (p : ℕ) (seed : ℤ) (c : ℕ) :
    Entries (d := D) (p := p) (fun q (G : ℤ × ℕ × ℕ → ℝ) => G (place p seed c q)) (noise k) := by
  obtain ⟨l1, l2, l3⟩ := law_facts k hk
  have hmp : ∀ i, MeasurePreserving (Function.eval i) (noise k) (law k) := fun i => measurePreserving_eval_infinitePi _ i
  have hev : ∀ i (f : ℝ → ℝ), Measurable f → ∫ G, f (G i) ∂(noise k) = ∫ x, f x ∂(law k) := by
    intro i f hf
    rw [← (hmp i).map_eq, integral_map (measurable_pi_apply i).aemeasurable hf.aestronglyMeasurable]
  have hind : iIndepFun (fun i (G : ℤ × ℕ × ℕ → ℝ) => G i) (noise k) := iIndepFun_infinitePi (X := fun _ x => x) fun _ => measurable_id
  refine ⟨hind.precomp (place_inj p seed c), fun q => measurable_pi_apply _, fun q => ?_, fun q => ?_, fun q => ?_⟩
  · refine HasSubgaussianMGF.of_map (Y := fun G : ℤ × ℕ × ℕ → ℝ => G (place p seed c q)) (X := fun x : ℝ => x) (measurable_pi_apply _).aemeasurable ?_
    have := (hmp (place p seed c q)).map_eq
    rw [show (fun G : ℤ × ℕ × ℕ → ℝ => G (place p seed c q)) = Function.eval (place p seed c q) from rfl, this]
    exact l1
  · rw [hev _ (fun x => x) measurable_id, l2]
  · rw [hev _ (fun x => x ^ 2) (by fun_prop), l3]

lemma row_dot (base : Env) (A : PAttributor X C D) (hk : A.params.ptype = .normal ∨ A.params.ptype = .rademacher) (G : ℤ × ℕ × ℕ → ℝ) (c : ℕ) (x y : Fin D → ℝ) :
    rowDot (A.row (envOf base G) c x) (A.row (envOf base G) c y) =
      (∑ j : Fin A.params.projDim, colForm (fun q (G : ℤ × ℕ × ℕ → ℝ) => G (place A.params.projDim A.params.seed c q)) x j G *
        colForm (fun q (G : ℤ × ℕ × ℕ → ℝ) => G (place A.params.projDim A.params.seed c q)) y j G) / A.params.projDim := by
  rw [row_dense _ A hk, row_dense _ A hk, rowDot_map]
  rw [show ∀ f : ℕ → ℝ, ((List.range A.params.projDim).map f).sum = ∑ j ∈ Finset.range A.params.projDim, f j from fun f => rfl, Finset.sum_range, Finset.sum_div]
  refine sum_congr rfl fun j _ => ?_
  rw [div_mul_div_comm, Real.mul_self_sqrt (Nat.cast_nonneg _)]
  rfl

section
variable {d p : ℕ} {Ω : Type} [MeasurableSpace Ω] {P : Measure Ω} [IsProbabilityMeasure P]

omit [IsProbabilityMeasure P] in
lemma colForm_memLp {ξ : Fin d × Fin p → Ω → ℝ} (h : Entries ξ P) (z : Fin d → ℝ) (j : Fin p) : MemLp (colForm ξ z j) 2 P := by
  unfold colForm
  exact memLp_finsetSum _ fun a _ => ((h.sub (a, j)).memLp 2).const_mul (z a)

omit [IsProbabilityMeasure P] in
lemma colForm_pair {ξ : Fin d × Fin p → Ω → ℝ} (h : Entries ξ P) (x y : Fin d → ℝ) (j : Fin p) :
    ∫ ω, colForm ξ x j ω * colForm ξ y j ω ∂P = ∑ a, x a * y a := by
  have h2 : ∀ a, MemLp (ξ (a, j)) 2 P := fun a => (h.sub (a, j)).memLp 2
  have hprod : ∀ a b, Integrable (fun ω => x a * ξ (a, j) ω * (y b * ξ (b, j) ω)) P := fun a b => ((h2 a).const_mul (x a)).integrable_mul ((h2 b).const_mul (y b))
  have hval : ∀ a b, ∫ ω, x a * ξ (a, j) ω * (y b * ξ (b, j) ω) ∂P = if a = b then x a * y b else 0 := by
    intro a b
    have e : (fun ω => x a * ξ (a, j) ω * (y b * ξ (b, j) ω)) = fun ω => x a * y b * (ξ (a, j) ω * ξ (b, j) ω) := by
      funext ω
      ring
    rw [e, integral_const_mul]
    by_cases hab : a = b
    · subst hab
      rw [if_pos rfl]
      have : ∀ ω, ξ (a, j) ω * ξ (a, j) ω = ξ (a, j) ω ^ 2 := fun ω => (pow_two _).symm
      simp only [this, h.sq]
      ring
    · rw [if_neg hab]
      have hi : IndepFun (ξ (a, j)) (ξ (b, j)) P := h.indep.indepFun fun he => hab (Prod.mk.inj he).1
      rw [show ∫ ω, ξ (a, j) ω * ξ (b, j) ω ∂P = (∫ ω, ξ (a, j) ω ∂P) * ∫ ω, ξ (b, j) ω ∂P from
        hi.integral_mul_eq_mul_integral (h.meas _).aestronglyMeasurable (h.meas _).aestronglyMeasurable, h.mean, zero_mul, mul_zero]
  have hfun : (fun ω => colForm ξ x j ω * colForm ξ y j ω) = fun ω => ∑ a, ∑ b, x a * ξ (a, j) ω * (y b * ξ (b, j) ω) := by
    funext ω
    rw [colForm, colForm, sum_mul_sum]
  rw [hfun, integral_finsetSum _ fun a _ => integrable_finsetSum _ fun b _ => hprod a b]
  refine sum_congr rfl fun a _ => ?_
  rw [integral_finsetSum _ fun b _ => hprod a b]
  simp only [hval, sum_ite_eq, mem_univ, if_true]

omit [IsProbabilityMeasure P] in
lemma mean_dot {ξ : Fin d × Fin p → Ω → ℝ} (h : Entries ξ P) (hp : 0 < p) (x y : Fin d → ℝ) :
    Integrable (fun ω => (∑ j, colForm ξ x j ω * colForm ξ y j ω) / p) P ∧ ∫ ω, (∑ j, colForm ξ x j ω * colForm ξ y j ω) / p ∂P = ∑ a, x a * y a := by
  have hi : ∀ j : Fin p, Integrable (fun ω => colForm ξ x j ω * colForm ξ y j ω) P := fun j => (colForm_memLp h x j).integrable_mul (colForm_memLp h y j)
  refine ⟨(integrable_finsetSum _ fun j _ => hi j).div_const _, ?_⟩
  rw [integral_div, integral_finsetSum _ fun j _ => hi j]
  simp only [colForm_pair h, sum_const, card_univ, Fintype.card_fin, nsmul_eq_mul]
  have : (p : ℝ) ≠ 0 := by exact_mod_cast hp.ne'
  field_simp

lemma union_tail {ι : Type} [Fintype ι] {ξ : ι → Fin d × Fin p → Ω → ℝ} (h : ∀ i, Entries (ξ i) P) (hp : 0 < p) (xs ys : ι → Fin d → ℝ) {ε : ℝ} (h0 : 0 < ε)
    (h1 : ε ≤ 1) :
    P.real {ω | ∃ i, ε * (Real.sqrt (∑ a, xs i a ^ 2) * Real.sqrt (∑ a, ys i a ^ 2)) <
      |(∑ k, colForm (ξ i) (xs i) k ω * colForm (ξ i) (ys i) k ω) / p - ∑ a, xs i a * ys i a|} ≤ 4 * Fintype.card ι * Real.exp (-(p * ε ^ 2 / 8)) := by
  have hcover : {ω | ∃ i, ε * (Real.sqrt (∑ a, xs i a ^ 2) * Real.sqrt (∑ a, ys i a ^ 2)) <
      |(∑ k, colForm (ξ i) (xs i) k ω * colForm (ξ i) (ys i) k ω) / p - ∑ a, xs i a * ys i a|} =
      ⋃ i : ι, {ω | ε * (p * (Real.sqrt (∑ a, xs i a ^ 2) * Real.sqrt (∑ a, ys i a ^ 2))) <
        |(∑ k, colForm (ξ i) (xs i) k ω * colForm (ξ i) (ys i) k ω) - p * ∑ a, xs i a * ys i a|} := by
    ext ω
    simp only [Set.mem_ofPred_eq, Set.mem_iUnion]
    exact exists_congr fun i => off_iff hp _ _ _ _
  rw [hcover]
  refine (measureReal_iUnion_fintype_le _).trans ((sum_le_sum fun i _ => inner_tail (h i) (xs i) (ys i) h0 h1).trans (le_of_eq ?_))
  simp
  ring

end

lemma noise_gauss (p : ℕ) (seed : ℤ) (c : ℕ) :
    (noise .normal).map (fun G (q : Fin D × Fin p) => G (place p seed c q)) = gauss (Fin D × Fin p) := by
  have h := noise_entries (D := D) .normal (Or.inl rfl) p seed c
  rw [(iIndepFun_iff_map_fun_eq_pi_map fun q => (h.meas q).aemeasurable).1 h.indep, gauss]
  congr 1
  funext q
  exact (measurePreserving_eval_infinitePi (fun _ : ℤ × ℕ × ℕ => law .normal) (place p seed c q)).map_eq

lemma noise_mse (p : ℕ) (hp : 0 < p) (seed : ℤ) (c : ℕ) (x y : Fin D → ℝ) :
    ∫ G, ((∑ j : Fin p, colForm (fun q (G : ℤ × ℕ × ℕ → ℝ) => G (place p seed c q)) x j G *
      colForm (fun q (G : ℤ × ℕ × ℕ → ℝ) => G (place p seed c q)) y j G) / p - ∑ a, x a * y a) ^ 2 ∂(noise .normal) =
      ((∑ a, x a ^ 2) * (∑ a, y a ^ 2) + (∑ a, x a * y a) ^ 2) / p := by
  have h := (normal_var (p := p) 1 0 hp x y).2
  simp only [normal_row, lin_col] at h
  rw [← h, ← noise_gauss p seed c, integral_map]
  · rfl
  · exact (measurable_pi_lambda _ fun q => measurable_pi_apply _).aemeasurable
  · fun_prop

/-- The deviation of a weighted sum is at most the weighted sum of the deviations. -/
lemma dev_le {α : Type} (l : List α) (w u v b : α → ℝ) (h : ∀ x ∈ l, |u x - v x| ≤ b x) :
    |(l.map fun x => w x * u x).sum - (l.map fun x => w x * v x).sum| ≤ (l.map fun x => |w x| * b x).sum := by
  induction l with
  | nil => simp
  | cons x l ih =>
    simp only [List.map_cons, List.sum_cons]
    have h1 := ih fun y hy => h y (List.mem_cons_of_mem _ hy)
    have h2 := h x List.mem_cons_self
    rw [show w x * u x + (l.map fun x => w x * u x).sum - (w x * v x + (l.map fun x => w x * v x).sum) =
      w x * (u x - v x) + ((l.map fun x => w x * u x).sum - (l.map fun x => w x * v x).sum) by ring]
    refine (abs_add_le _ _).trans (add_le_add ?_ h1)
    rw [abs_mul]
    exact mul_le_mul_of_nonneg_left h2 (abs_nonneg _)

/-! ### C238 -/

/-- **C238** (mean). Without normalisation, with `normal` (the default) or `rademacher` projections, the mean of each score over the random matrices is the
TracIn score of the gradients themselves; the same for `self_attribute`. -/
theorem C238_mean (pyInt : List Char → Option ℤ) (base : Env) (A : PAttributor X C D) (hdev : A.dev = .cpu)
    (hk : A.params.ptype = .normal ∨ A.params.ptype = .rademacher) (hp : 0 < A.params.projDim) (hn : A.normalized = false)
    (hl : A.ckpts.length = A.weights.length) (tr te : Loader X) (h1 : 0 < tr.bs) (h2 : 0 < te.bs) (s1 : tr.supported = true) (s2 : te.supported = true) :
    ∃ (M : (ℤ × ℕ × ℕ → ℝ) → Mat ℝ) (v : (ℤ × ℕ × ℕ → ℝ) → Vec ℝ),
      (∀ G, attributeP pyInt (envOf base G) A tr te = .ok (M G) ∧ selfAttributeP pyInt (envOf base G) A tr = .ok (v G)) ∧
      (∀ i (hi : i < tr.data.length) j (hj : j < te.data.length), Integrable (fun G => (M G).f i j) (noise A.params.ptype) ∧
        ∫ G, (M G).f i j ∂(noise A.params.ptype) = ((A.ckpts.zip A.weights).map fun x => x.2 * ip (A.gLoss x.1 tr.data[i]) (A.gTarget x.1 te.data[j])).sum) ∧
      ∀ i (hi : i < tr.data.length), Integrable (fun G => (v G).f i) (noise A.params.ptype) ∧
        ∫ G, (v G).f i ∂(noise A.params.ptype) = ((A.ckpts.zip A.weights).map fun x => x.2 * ip (A.gLoss x.1 tr.data[i]) (A.gLoss x.1 tr.data[i])).sum := by
  have hk' : A.params.ptype ≠ .sjlt ∧ A.params.ptype ≠ .grass := by rcases hk with h | h <;> rw [h] <;> decide
  have hs := fun G => C238_scores pyInt (envOf base G) A hdev hk' hp hl tr te h1 h2 s1 s2
  choose M hM using fun G => (hs G).1
  choose v hv using fun G => (hs G).2
  have hz : A.ckpts.zip A.weights = A.steps.map fun x => (x.1.1, x.2) := by
    unfold PAttributor.steps
    have : A.ckpts = A.ckpts.zipIdx.map (·.1) := by simp
    conv_lhs => rw [this]
    rw [List.zip_map_left]
    rfl
  have key : ∀ (x y : C → Fin D → ℝ) (l : List ((C × ℕ) × ℝ)),
      Integrable (fun G => (l.map fun s => s.2 * rowDot (A.row (envOf base G) s.1.2 (x s.1.1)) (A.row (envOf base G) s.1.2 (y s.1.1))).sum) (noise A.params.ptype) ∧
      ∫ G, (l.map fun s => s.2 * rowDot (A.row (envOf base G) s.1.2 (x s.1.1)) (A.row (envOf base G) s.1.2 (y s.1.1))).sum ∂(noise A.params.ptype) =
        (l.map fun s => s.2 * ip (x s.1.1) (y s.1.1)).sum := by
    intro x y l
    induction l with
    | nil => simp
    | cons s l ih =>
      have hm := mean_dot (noise_entries (D := D) A.params.ptype hk A.params.projDim A.params.seed s.1.2) hp (x s.1.1) (y s.1.1)
      have i1 : Integrable (fun G => s.2 * rowDot (A.row (envOf base G) s.1.2 (x s.1.1)) (A.row (envOf base G) s.1.2 (y s.1.1))) (noise A.params.ptype) := by
        simp only [row_dot base A hk]
        exact hm.1.const_mul _
      simp only [List.map_cons, List.sum_cons]
      refine ⟨i1.add ih.1, ?_⟩
      rw [integral_add i1 ih.1, ih.2]
      simp only [row_dot base A hk]
      rw [integral_const_mul, hm.2]
      rfl
  refine ⟨M, v, fun G => ⟨(hM G).1, (hv G).1⟩, fun i hi j hj => ?_, fun i hi => ?_⟩
  · have hf : ∀ G, (M G).f i j = _ := fun G => (hM G).2.2.2 i hi j hj
    simp only [hf, hn, rowScore, Bool.false_eq_true, if_false]
    rw [hz, List.map_map]
    exact key (fun c => A.gLoss c tr.data[i]) (fun c => A.gTarget c te.data[j]) A.steps
  · have hf : ∀ G, (v G).f i = _ := fun G => (hv G).2.2 i hi
    simp only [hf, hn, Bool.false_eq_true, if_false]
    rw [hz, List.map_map]
    exact key (fun c => A.gLoss c tr.data[i]) (fun c => A.gLoss c tr.data[i]) A.steps

/-- **C238** (distance). All scores are within `ε` times the weighted sum of the products of the norms of the gradients, except with probability at most
`4 n m C exp(-proj_dim ε² / 8)` for `n` training samples, `m` test samples and `C` checkpoints. -/
theorem C238_close (pyInt : List Char → Option ℤ) (base : Env) (A : PAttributor X C D) (hdev : A.dev = .cpu)
    (hk : A.params.ptype = .normal ∨ A.params.ptype = .rademacher) (hp : 0 < A.params.projDim) (hn : A.normalized = false)
    (hl : A.ckpts.length = A.weights.length) (tr te : Loader X) (h1 : 0 < tr.bs) (h2 : 0 < te.bs) (s1 : tr.supported = true) (s2 : te.supported = true)
    (ε : ℝ) (h0 : 0 < ε) (hε : ε ≤ 1) :
    ∃ M : (ℤ × ℕ × ℕ → ℝ) → Mat ℝ, (∀ G, attributeP pyInt (envOf base G) A tr te = .ok (M G)) ∧
      (noise A.params.ptype).real {G | ∃ (i : Fin tr.data.length) (j : Fin te.data.length),
        ε * ((A.ckpts.zip A.weights).map fun x => |x.2| * (nrm (A.gLoss x.1 tr.data[i]) * nrm (A.gTarget x.1 te.data[j]))).sum <
          |(M G).f i j - ((A.ckpts.zip A.weights).map fun x => x.2 * ip (A.gLoss x.1 tr.data[i]) (A.gTarget x.1 te.data[j])).sum|} ≤
        4 * (tr.data.length * te.data.length * A.ckpts.length) * Real.exp (-(A.params.projDim * ε ^ 2 / 8)) := by
  have hk' : A.params.ptype ≠ .sjlt ∧ A.params.ptype ≠ .grass := by rcases hk with h | h <;> rw [h] <;> decide
  choose M hM using fun G => (C238_scores pyInt (envOf base G) A hdev hk' hp hl tr te h1 h2 s1 s2).1
  have hz : A.ckpts.zip A.weights = A.steps.map fun x => (x.1.1, x.2) := by
    unfold PAttributor.steps
    have : A.ckpts = A.ckpts.zipIdx.map (·.1) := by simp
    conv_lhs => rw [this]
    rw [List.zip_map_left]
    rfl
  refine ⟨M, fun G => (hM G).1, ?_⟩
  have hlen : A.steps.length = A.ckpts.length := by simp [PAttributor.steps, hl]
  have ht := union_tail (ι := Fin tr.data.length × Fin te.data.length × Fin A.steps.length)
    (fun q => noise_entries (D := D) A.params.ptype hk A.params.projDim A.params.seed (A.steps[q.2.2]).1.2) hp
    (fun q => A.gLoss (A.steps[q.2.2]).1.1 tr.data[q.1]) (fun q => A.gTarget (A.steps[q.2.2]).1.1 te.data[q.2.1]) h0 hε
  have hcard : (Fintype.card (Fin tr.data.length × Fin te.data.length × Fin A.steps.length) : ℝ) = tr.data.length * te.data.length * A.ckpts.length := by
    simp [hlen]
    ring
  rw [hcard] at ht
  refine le_trans (measureReal_mono ?_) ht
  rintro G ⟨i, j, hlt⟩
  by_contra hno
  simp only [Set.mem_ofPred_eq, not_exists, not_lt] at hno
  have hf : (M G).f i j = _ := (hM G).2.2.2 i i.2 j j.2
  rw [hf, hn, hz, List.map_map, List.map_map] at hlt
  simp only [rowScore, Bool.false_eq_true, if_false] at hlt
  have hd := dev_le A.steps (fun x => x.2) (fun x => rowDot (A.row (envOf base G) x.1.2 (A.gLoss x.1.1 tr.data[i])) (A.row (envOf base G) x.1.2 (A.gTarget x.1.1 te.data[j])))
    (fun x => ip (A.gLoss x.1.1 tr.data[i]) (A.gTarget x.1.1 te.data[j]))
    (fun x => ε * (nrm (A.gLoss x.1.1 tr.data[i]) * nrm (A.gTarget x.1.1 te.data[j]))) (by
      intro x hx
      obtain ⟨s, hs, rfl⟩ := List.mem_iff_getElem.1 hx
      have := hno (i, j, ⟨s, hs⟩)
      rw [row_dot base A hk]
      exact this)
  refine absurd hlt (not_lt.2 (hd.trans (le_of_eq ?_)))
  rw [← List.sum_map_mul_left]
  refine congrArg List.sum (List.map_congr_left fun x _ => ?_)
  simp only [Function.comp]
  ring

/-- **C238** (error). With one checkpoint and the default type the mean squared error of a score is `w² (|g|² |h|² + ⟨g, h⟩²) / proj_dim`: it is zero only if the
weight or one of the gradients is. -/
theorem C238_error (pyInt : List Char → Option ℤ) (base : Env) (A : PAttributor X C D) (hdev : A.dev = .cpu) (hk : A.params.ptype = .normal)
    (hp : 0 < A.params.projDim) (hn : A.normalized = false) (k : C) (w : ℝ) (hc : A.ckpts = [k]) (hw : A.weights = [w]) (tr te : Loader X)
    (h1 : 0 < tr.bs) (h2 : 0 < te.bs) (s1 : tr.supported = true) (s2 : te.supported = true) :
    ∃ M : (ℤ × ℕ × ℕ → ℝ) → Mat ℝ, (∀ G, attributeP pyInt (envOf base G) A tr te = .ok (M G)) ∧
      ∀ i (hi : i < tr.data.length) j (hj : j < te.data.length),
        ∫ G, ((M G).f i j - w * ip (A.gLoss k tr.data[i]) (A.gTarget k te.data[j])) ^ 2 ∂(noise .normal) =
          w ^ 2 * (nrm (A.gLoss k tr.data[i]) ^ 2 * nrm (A.gTarget k te.data[j]) ^ 2 + ip (A.gLoss k tr.data[i]) (A.gTarget k te.data[j]) ^ 2) / A.params.projDim := by
  have hk' : A.params.ptype ≠ .sjlt ∧ A.params.ptype ≠ .grass := by rw [hk]; decide
  choose M hM using fun G => (C238_scores pyInt (envOf base G) A hdev hk' hp (by rw [hc, hw]; rfl) tr te h1 h2 s1 s2).1
  refine ⟨M, fun G => (hM G).1, fun i hi j hj => ?_⟩
  have hf : ∀ G, (M G).f i j = w * rowDot (A.row (envOf base G) 0 (A.gLoss k tr.data[i])) (A.row (envOf base G) 0 (A.gTarget k te.data[j])) := by
    intro G
    rw [(hM G).2.2.2 i hi j hj]
    simp [PAttributor.steps, hc, hw, hn, rowScore]
  have hsq : ∀ g : Fin D → ℝ, nrm g ^ 2 = ∑ a, g a ^ 2 := fun g => Real.sq_sqrt (Finset.sum_nonneg fun a _ => sq_nonneg _)
  have hm := noise_mse A.params.projDim hp A.params.seed 0 (A.gLoss k tr.data[i]) (A.gTarget k te.data[j])
  simp only [hf, row_dot base A (Or.inl hk), ← mul_sub, mul_pow]
  rw [integral_const_mul]
  rw [show ∀ g h : Fin D → ℝ, ip g h = ∑ a, g a * h a from fun _ _ => rfl, hm, hsq, hsq]
  ring

/-- A regression of one feature without options: two checkpoints, default projection. -/
noncomputable def exAttr : PAttributor (ℝ × ℝ) ℝ 1 :=
  ⟨fun c x _ => (c * x.1 - x.2) * x.1, fun c x _ => (c * x.1 - x.2) * x.1, [1, 2], [1 / 10, 1 / 20], false, none, .cpu⟩

example : exAttr.dev = .cpu ∧ exAttr.params.ptype = .normal ∧ 0 < exAttr.params.projDim ∧ exAttr.normalized = false ∧
    exAttr.ckpts.length = exAttr.weights.length := by
  refine ⟨rfl, rfl, ?_, rfl, rfl⟩
  show 0 < 512
  norm_num

/-- With the default dimension an error of half the norms has for each score and checkpoint a probability of at most `4 exp(-16)`. -/
example : exAttr.params.projDim * (1 / 2 : ℝ) ^ 2 / 8 = 16 := by
  show ((512 : ℕ) : ℝ) * (1 / 2) ^ 2 / 8 = 16
  norm_num

/-- The identity is exact: the score of the sample `(1, 0)` with itself is `1/10 · 1 + 1/20 · 4`. -/
example (pyInt : List Char → Option ℤ) (env : Env) : ∃ M, attributeP pyInt env { exAttr with projParams := some { ptype := .identity } }
    ⟨[((1 : ℝ), (0 : ℝ))], 1, true⟩ ⟨[((1 : ℝ), (0 : ℝ))], 1, true⟩ = .ok M ∧ M.f 0 0 = 3 / 10 := by
  obtain ⟨M, e, -, -, f⟩ := C238_identity pyInt env { exAttr with projParams := some { ptype := .identity } } rfl rfl (by show 0 < 512; norm_num) rfl
    ⟨[((1 : ℝ), (0 : ℝ))], 1, true⟩ ⟨[((1 : ℝ), (0 : ℝ))], 1, true⟩ (by decide) (by decide) rfl rfl
  refine ⟨M, e, ?_⟩
  rw [f 0 (by simp) 0 (by simp)]
  simp [exAttr, ip]
  norm_num

end Verif.TracIn
