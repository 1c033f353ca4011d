import Verif.TracIn.Model
import Verif.Base.Blocks
import Mathlib.Algebra.Order.BigOperators.Ring.Finset
import Mathlib.Algebra.BigOperators.Field

/-! # C09–C11: TracIn -/

namespace Verif.TracIn

variable {X C : Type} {d : Nat}

/-- Specification: inner product of two vectors. -/
noncomputable def ip (u v : Fin d → ℝ) : ℝ := ∑ k, u k * v k

/-- Specification: Euclidean norm. -/
noncomputable def nrm (u : Fin d → ℝ) : ℝ := Real.sqrt (∑ k, u k ^ 2)

/-- Specification: contribution of one checkpoint to the score of a (train, test) pair. A gradient of norm below `1e-12` is divided
by `1e-12` instead of its norm. -/
noncomputable def pairScore (A : Attributor X C d) (c : C) (x y : X) : ℝ :=
  if A.normalized then ip (A.gLoss c x) (A.gTarget c y) / (max (nrm (A.gLoss c x)) 1e-12 * max (nrm (A.gTarget c y)) 1e-12)
  else ip (A.gLoss c x) (A.gTarget c y)

lemma foldlM_no_error {α β : Type} {e : Err} (f : β → α → Except Err β) (hf : ∀ b a, f b a ≠ .error e) (l : List α) (b : β) :
    l.foldlM f b ≠ .error e := by
  induction l generalizing b with
  | nil => intro h; cases h
  | cons a l ih =>
    rw [List.foldlM_cons]
    cases hb : f b a with
    | error e' =>
      intro h
      exact hf b a (by rw [hb]; exact h)
    | ok b' => exact ih b'

lemma liftO_ne {α : Type} (x : Option α) : liftO x ≠ .error .valueError := by
  cases x <;> simp [liftO]

/-- **C09.** `attribute` and `self_attribute` raise `ValueError` exactly when the number of weights differs from the number of checkpoints, whatever the
loaders are. -/
theorem C09_length_mismatch (A : Attributor X C d) (tr te : Loader X) :
    (attribute' A tr te = .error .valueError ↔ A.ckpts.length ≠ A.weights.length) ∧
    (selfAttribute A tr = .error .valueError ↔ A.ckpts.length ≠ A.weights.length) := by
  constructor
  · unfold attribute'
    split_ifs with h
    · exact ⟨fun _ => h, fun _ => rfl⟩
    · refine ⟨fun he => absurd he (foldlM_no_error _ (fun M cw => ?_) _ _), fun h' => absurd h' h⟩
      unfold pairLoop
      refine foldlM_no_error _ (fun M b => ?_) _ _
      split_ifs
      · simp
      · exact foldlM_no_error _ (fun M t => by simp) _ _
      · exact foldlM_no_error _ (fun M t => liftO_ne _) _ _
  · unfold selfAttribute
    split_ifs with h
    · exact ⟨fun _ => h, fun _ => rfl⟩
    · refine ⟨fun he => absurd he (foldlM_no_error _ (fun M cw => ?_) _ _), fun h' => absurd h' h⟩
      unfold sliceLoop
      refine foldlM_no_error _ (fun M b => ?_) _ _
      split_ifs
      · simp
      · exact liftO_ne _

lemma zip_fold_spec (A : Attributor X C d) (tr te : Loader X)
    (h1 : 0 < tr.bs) (h2 : 0 < te.bs) (s1 : tr.supported = true) (s2 : te.supported = true)
    (l : List (C × ℝ)) (M : Mat ℝ) (hr : M.r = tr.data.length) (hc : M.c = te.data.length) :
    ∃ M', l.foldlM (fun M cw => pairLoop tr te (block A cw.1 cw.2) M) M = .ok M' ∧ M'.r = tr.data.length ∧
      M'.c = te.data.length ∧ ∀ i (hi : i < tr.data.length) j (hj : j < te.data.length),
        M'.f i j = M.f i j + (l.map (fun cw => cw.2 * pairScore A cw.1 tr.data[i] te.data[j])).sum := by
  induction l generalizing M with
  | nil => exact ⟨M, rfl, hr, hc, by simp⟩
  | cons cw l ih =>
    obtain ⟨M1, e1, r1, c1, f1⟩ := pairLoop_spec tr te (block A cw.1 cw.2)
      (fun x y => cw.2 * pairScore A cw.1 x y) (fun _ _ => rfl) (fun _ _ => rfl) (by
        intro a b i j x y hx hy
        simp only [block, hx, hy, pairScore, ip, nrm, normalize]
        split
        · rw [mul_comm cw.2, Finset.sum_div]
          congr 1
          apply Finset.sum_congr rfl
          intro k _
          rw [div_mul_div_comm]
        · rw [mul_comm]) h1 h2 s1 s2 M hr hc
    obtain ⟨M2, e2, r2, c2, f2⟩ := ih M1 r1 c1
    refine ⟨M2, ?_, r2, c2, fun i hi j hj => ?_⟩
    · rw [List.foldlM_cons, e1]; exact e2
    · rw [f2 i hi j hj, f1 i hi j hj, List.map_cons, List.sum_cons, add_assoc]

/-- **C09.** Otherwise entry `(i, j)` is the sum over checkpoints of the weight times the (optionally normalised) inner product of
the gradients of training sample `i` and test sample `j`, for all batch sizes. -/
theorem C09_tracin_entry (A : Attributor X C d) (tr te : Loader X) (hl : A.ckpts.length = A.weights.length)
    (h1 : 0 < tr.bs) (h2 : 0 < te.bs) (s1 : tr.supported = true) (s2 : te.supported = true) :
    ∃ M, attribute' A tr te = .ok M ∧ M.r = tr.data.length ∧ M.c = te.data.length ∧
      ∀ i (hi : i < tr.data.length) j (hj : j < te.data.length),
        M.f i j = ((A.ckpts.zip A.weights).map (fun cw => cw.2 * pairScore A cw.1 tr.data[i] te.data[j])).sum := by
  obtain ⟨M, e, r, c, f⟩ := zip_fold_spec A tr te h1 h2 s1 s2 (A.ckpts.zip A.weights)
    (Mat.zeros tr.data.length te.data.length) rfl rfl
  refine ⟨M, ?_, r, c, fun i hi j hj => ?_⟩
  · unfold attribute'; rw [if_neg (by simpa using hl), e]
  · rw [f i hi j hj]; simp [Mat.zeros]

/-- **C09.** Re-batching changes no entry. -/
theorem C09_batch_independent (A : Attributor X C d) (xs ys : List X) (hl : A.ckpts.length = A.weights.length)
    (b1 b2 b1' b2' : Nat) (h1 : 0 < b1) (h2 : 0 < b2) (h1' : 0 < b1') (h2' : 0 < b2') :
    ∃ M M', attribute' A ⟨xs, b1, true⟩ ⟨ys, b2, true⟩ = .ok M ∧ attribute' A ⟨xs, b1', true⟩ ⟨ys, b2', true⟩ = .ok M' ∧
      M.r = M'.r ∧ M.c = M'.c ∧ ∀ i < xs.length, ∀ j < ys.length, M.f i j = M'.f i j := by
  obtain ⟨M, e, r, c, f⟩ := C09_tracin_entry A ⟨xs, b1, true⟩ ⟨ys, b2, true⟩ hl h1 h2 rfl rfl
  obtain ⟨M', e', r', c', f'⟩ := C09_tracin_entry A ⟨xs, b1', true⟩ ⟨ys, b2', true⟩ hl h1' h2' rfl rfl
  exact ⟨M, M', e, e', by rw [r, r'], by rw [c, c'], fun i hi j hj => by rw [f i hi j hj, f' i hi j hj]⟩

lemma self_fold_spec (A : Attributor X C d) (tr : Loader X) (h1 : 0 < tr.bs) (s1 : tr.supported = true)
    (l : List (C × ℝ)) (v : Vec ℝ) (hv : v.n = tr.data.length) :
    ∃ v', l.foldlM (fun v cw => sliceLoop tr (selfBlock A cw.1 cw.2) v) v = .ok v' ∧ v'.n = tr.data.length ∧
      ∀ i (hi : i < tr.data.length), v'.f i = v.f i + (l.map (fun cw => cw.2 *
        (if A.normalized then 1 else ip (A.gLoss cw.1 tr.data[i]) (A.gLoss cw.1 tr.data[i])))).sum := by
  induction l generalizing v with
  | nil => exact ⟨v, rfl, hv, by simp⟩
  | cons cw l ih =>
    obtain ⟨v1, e1, n1, f1⟩ := sliceLoop_spec tr (selfBlock A cw.1 cw.2)
      (fun x => cw.2 * (if A.normalized then 1 else ip (A.gLoss cw.1 x) (A.gLoss cw.1 x))) (fun _ => rfl) (by
        intro a i x hx
        simp only [selfBlock, hx, ip]
        split <;> rw [mul_comm]) h1 s1 v hv
    obtain ⟨v2, e2, n2, f2⟩ := ih v1 n1
    refine ⟨v2, ?_, n2, fun i hi => ?_⟩
    · rw [List.foldlM_cons, e1]; exact e2
    · rw [f2 i hi, f1 i hi, List.map_cons, List.sum_cons, add_assoc]

lemma selfAttribute_spec (A : Attributor X C d) (tr : Loader X) (hl : A.ckpts.length = A.weights.length)
    (h1 : 0 < tr.bs) (s1 : tr.supported = true) :
    ∃ v, selfAttribute A tr = .ok v ∧ v.n = tr.data.length ∧ ∀ i (hi : i < tr.data.length), v.f i =
      ((A.ckpts.zip A.weights).map (fun cw => cw.2 *
        (if A.normalized then 1 else ip (A.gLoss cw.1 tr.data[i]) (A.gLoss cw.1 tr.data[i])))).sum := by
  obtain ⟨v, e, n, f⟩ := self_fold_spec A tr h1 s1 (A.ckpts.zip A.weights) ⟨tr.data.length, fun _ => 0⟩ rfl
  refine ⟨v, ?_, n, fun i hi => ?_⟩
  · unfold selfAttribute; rw [if_neg (by simpa using hl), e]
  · rw [f i hi]; simp

/-- **C10.** Un-normalised: when the target is the loss (the default), `self_attribute` is the diagonal of `attribute(train, train)`
for every batch size. -/
theorem C10_self_is_diagonal (A : Attributor X C d) (tr : Loader X) (hl : A.ckpts.length = A.weights.length)
    (h1 : 0 < tr.bs) (s1 : tr.supported = true) (hn : A.normalized = false) (ht : A.gTarget = A.gLoss) :
    ∃ v M, selfAttribute A tr = .ok v ∧ attribute' A tr tr = .ok M ∧ v.n = tr.data.length ∧
      ∀ i < tr.data.length, v.f i = M.f i i := by
  obtain ⟨v, e, n, f⟩ := selfAttribute_spec A tr hl h1 s1
  obtain ⟨M, e', -, -, f'⟩ := C09_tracin_entry A tr tr hl h1 h1 s1 s1
  refine ⟨v, M, e, e', n, fun i hi => ?_⟩
  rw [f i hi, f' i hi i hi]
  simp [pairScore, hn, ht]

/-- **C10.** Un-normalised, for any target: the self score is the weighted sum of the squared norms of the LOSS gradients. -/
theorem C10_self_unnormalized (A : Attributor X C d) (tr : Loader X) (hl : A.ckpts.length = A.weights.length)
    (h1 : 0 < tr.bs) (s1 : tr.supported = true) (hn : A.normalized = false) :
    ∃ v, selfAttribute A tr = .ok v ∧ v.n = tr.data.length ∧ ∀ i (hi : i < tr.data.length), v.f i =
      ((A.ckpts.zip A.weights).map (fun cw => cw.2 * nrm (A.gLoss cw.1 tr.data[i]) ^ 2)).sum := by
  obtain ⟨v, e, n, f⟩ := selfAttribute_spec A tr hl h1 s1
  refine ⟨v, e, n, fun i hi => ?_⟩
  rw [f i hi]
  congr 2
  funext cw
  rw [hn, nrm, Real.sq_sqrt (Finset.sum_nonneg fun _ _ => sq_nonneg _)]
  simp [ip, pow_two]

/-- **C10.** Normalised: every training sample gets the same value, the sum of the weights. -/
theorem C10_self_normalized_constant (A : Attributor X C d) (tr : Loader X) (hl : A.ckpts.length = A.weights.length)
    (h1 : 0 < tr.bs) (s1 : tr.supported = true) (hn : A.normalized = true) :
    ∃ v, selfAttribute A tr = .ok v ∧ v.n = tr.data.length ∧ ∀ i < tr.data.length, v.f i = A.weights.sum := by
  obtain ⟨v, e, n, f⟩ := selfAttribute_spec A tr hl h1 s1
  refine ⟨v, e, n, fun i hi => ?_⟩
  rw [f i hi]
  simp only [hn, if_true, mul_one]
  conv_rhs => rw [← List.map_snd_zip (l₁ := A.ckpts) (l₂ := A.weights) (by omega)]

lemma ip_sq_le (u v : Fin d → ℝ) : |ip u v| ≤ nrm u * nrm v := by
  rw [nrm, nrm, ← Real.sqrt_mul (Finset.sum_nonneg fun _ _ => sq_nonneg _)]
  apply Real.abs_le_sqrt
  exact Finset.sum_mul_sq_le_sq_mul_sq _ _ _

lemma abs_pairScore_le (A : Attributor X C d) (hn : A.normalized = true) (c : C) (x y : X) : |pairScore A c x y| ≤ 1 := by
  simp only [pairScore, hn, if_true]
  have p1 : (0 : ℝ) < max (nrm (A.gLoss c x)) 1e-12 := lt_max_of_lt_right (by norm_num)
  have p2 : (0 : ℝ) < max (nrm (A.gTarget c y)) 1e-12 := lt_max_of_lt_right (by norm_num)
  rw [abs_div, abs_of_pos (mul_pos p1 p2), div_le_one (mul_pos p1 p2)]
  refine (ip_sq_le _ _).trans (mul_le_mul (le_max_left _ _) (le_max_left _ _) (Real.sqrt_nonneg _) p1.le)

/-- **C11.** With normalised gradients and non-negative weights, every score is bounded by the sum of the weights. -/
theorem C11_normalized_bound (A : Attributor X C d) (tr te : Loader X) (hl : A.ckpts.length = A.weights.length)
    (h1 : 0 < tr.bs) (h2 : 0 < te.bs) (s1 : tr.supported = true) (s2 : te.supported = true)
    (hn : A.normalized = true) (hw : ∀ w ∈ A.weights, 0 ≤ w) :
    ∃ M, attribute' A tr te = .ok M ∧ ∀ i < tr.data.length, ∀ j < te.data.length, |M.f i j| ≤ A.weights.sum := by
  obtain ⟨M, e, -, -, f⟩ := C09_tracin_entry A tr te hl h1 h2 s1 s2
  refine ⟨M, e, fun i hi j hj => ?_⟩
  rw [f i hi j hj]
  conv_rhs => rw [← List.map_snd_zip (l₁ := A.ckpts) (l₂ := A.weights) (by omega)]
  have hz : ∀ cw ∈ A.ckpts.zip A.weights, 0 ≤ cw.2 := fun cw h => hw _ (List.of_mem_zip h).2
  generalize A.ckpts.zip A.weights = l at hz
  induction l with
  | nil => simp
  | cons cw l ih =>
    simp only [List.map_cons, List.sum_cons]
    refine (abs_add_le _ _).trans (add_le_add ?_ (ih fun cw h => hz cw (List.mem_cons_of_mem _ h)))
    have h0 := hz cw (List.mem_cons_self ..)
    rw [abs_mul, abs_of_nonneg h0]
    exact mul_le_of_le_one_right h0 (abs_pairScore_le A hn _ _ _)

/-- **C11.** The bound is attained when at each checkpoint the test gradient is a positive multiple of the train gradient and both
norms are at least `1e-12`. -/
theorem C11_normalized_attained (A : Attributor X C d) (tr te : Loader X) (hl : A.ckpts.length = A.weights.length)
    (h1 : 0 < tr.bs) (h2 : 0 < te.bs) (s1 : tr.supported = true) (s2 : te.supported = true)
    (hn : A.normalized = true) (i : Nat) (hi : i < tr.data.length) (j : Nat) (hj : j < te.data.length)
    (hpar : ∀ c ∈ A.ckpts, ∃ t : ℝ, 0 < t ∧ A.gTarget c te.data[j] = fun k => t * A.gLoss c tr.data[i] k)
    (hbig : ∀ c ∈ A.ckpts, 1e-12 ≤ nrm (A.gLoss c tr.data[i]) ∧ 1e-12 ≤ nrm (A.gTarget c te.data[j])) :
    ∃ M, attribute' A tr te = .ok M ∧ M.f i j = A.weights.sum := by
  obtain ⟨M, e, -, -, f⟩ := C09_tracin_entry A tr te hl h1 h2 s1 s2
  refine ⟨M, e, ?_⟩
  rw [f i hi j hj]
  conv_rhs => rw [← List.map_snd_zip (l₁ := A.ckpts) (l₂ := A.weights) (by omega)]
  congr 1
  apply List.map_congr_left
  intro cw hcw
  have hc := (List.of_mem_zip hcw).1
  obtain ⟨t, ht, hg⟩ := hpar _ hc
  obtain ⟨b1, b2⟩ := hbig _ hc
  have hnn : nrm (A.gTarget cw.1 te.data[j]) = t * nrm (A.gLoss cw.1 tr.data[i]) := by
    rw [hg, nrm, nrm]
    simp only [mul_pow, ← Finset.mul_sum]
    rw [Real.sqrt_mul (sq_nonneg t), Real.sqrt_sq ht.le]
  have hip : ip (A.gLoss cw.1 tr.data[i]) (A.gTarget cw.1 te.data[j]) = t * nrm (A.gLoss cw.1 tr.data[i]) ^ 2 := by
    rw [hg, nrm, Real.sq_sqrt (Finset.sum_nonneg fun _ _ => sq_nonneg _), ip, Finset.mul_sum]
    apply Finset.sum_congr rfl
    intro k _; ring
  have hpos : 0 < nrm (A.gLoss cw.1 tr.data[i]) := lt_of_lt_of_le (by norm_num) b1
  have : pairScore A cw.1 tr.data[i] te.data[j] = 1 := by
    simp only [pairScore, hn, if_true]
    rw [max_eq_left b1, max_eq_left b2, hip, hnn, div_eq_one_iff_eq (by positivity)]
    ring
  rw [this, mul_one]

/-- A concrete attributor with two checkpoints. -/
noncomputable def demo (normalized : Bool) : Attributor ℝ ℝ 1 :=
  ⟨fun c x _ => c * x, fun c x _ => c * x, [1, 2], [3, 5], normalized⟩

example : ∃ M, attribute' (demo false) ⟨[1, 2, 3], 2, true⟩ ⟨[1, 4], 1, true⟩ = .ok M ∧ M.f 2 1 = 276 := by
  obtain ⟨M, e, -, -, f⟩ := C09_tracin_entry (demo false) ⟨[1, 2, 3], 2, true⟩ ⟨[1, 4], 1, true⟩ rfl (by norm_num) (by norm_num)
    rfl rfl
  refine ⟨M, e, ?_⟩
  rw [f 2 (by norm_num) 1 (by norm_num)]
  simp [pairScore, demo, ip]; norm_num

example : ∃ v, selfAttribute (demo true) ⟨[1, 2, 3], 2, true⟩ = .ok v ∧ v.f 0 = 8 ∧ v.f 2 = 8 := by
  obtain ⟨v, e, -, f⟩ := C10_self_normalized_constant (demo true) ⟨[1, 2, 3], 2, true⟩ rfl (by norm_num) rfl rfl
  refine ⟨v, e, ?_, ?_⟩
  · rw [f 0 (by norm_num)]; simp [demo]; norm_num
  · rw [f 2 (by norm_num)]; simp [demo]; norm_num

example : ∃ M, attribute' (demo true) ⟨[1, 2, 3], 2, true⟩ ⟨[1, 4], 1, true⟩ = .ok M ∧ M.f 2 1 = 8 := by
  obtain ⟨M, e, f⟩ := C11_normalized_attained (demo true) ⟨[1, 2, 3], 2, true⟩ ⟨[1, 4], 1, true⟩ rfl (by norm_num) (by norm_num)
    rfl rfl rfl 2 (by norm_num) 1 (by norm_num)
    (by intro c _; exact ⟨4 / 3, by norm_num, by funext k; simp [demo]; ring⟩)
    (by
      intro c hc
      simp [demo] at hc
      rcases hc with rfl | rfl <;> simp [demo, nrm] <;> norm_num)
  refine ⟨M, e, ?_⟩
  rw [f]; simp [demo]; norm_num

end Verif.TracIn
