import Verif.Attr.CGAttrModel
import Verif.Attr.ConvexProps
import Verif.Hessian.CGRateProps

/-! # C156: influence scores by conjugate gradient -/

namespace Verif.Attr

open Matrix Topology Verif.Hessian

variable {X C : Type} {p : ℕ}

/-! ### Specification -/

/-- How wrong a score may be after `m` iterations: `L` bounds the eigenvalues of the Hessian, `g` and `v` are the gradients of the training and of the test sample. -/
noncomputable def cgBound (reg L : ℝ) (m : ℕ) (g v : Fin p → ℝ) : ℝ :=
  2 * ((Real.sqrt (L + reg) - Real.sqrt reg) / (Real.sqrt (L + reg) + Real.sqrt reg)) ^ m * Real.sqrt ((L + reg) / reg * (1 + 1 / reg ^ 2)) *
    (Real.sqrt (g ⬝ᵥ g) * Real.sqrt (v ⬝ᵥ v))

/-! ### Helper lemmas -/

lemma ok_of_bind {α β : Type} (x : Except Err α) (k : α → Except Err β) (b : β) (h : x >>= k = .ok b) : ∃ a, x = .ok a ∧ k a = .ok b := by
  cases x with
  | error e => cases h
  | ok a => exact ⟨a, rfl, h⟩

lemma cgTrans_some (hess : C → List X → Matrix (Fin p) (Fin p) ℝ) (m : ℕ) (tol reg : ℝ) (c : C) (full : Loader X) (v w : Fin p → ℝ)
    (h : cgTransTest hess m tol reg c full v = .ok (some w)) :
    ∃ u : ℕ → Fin p → ℝ, w = ∑ b ∈ Finset.range full.nb, u b ∧
      ∀ b < full.nb, ihvpCG (hess c (full.batch b) + reg • (1 : Matrix (Fin p) (Fin p) ℝ)) m tol v = some (u b) := by
  unfold cgTransTest at h
  generalize full.nb = k at h ⊢
  induction k generalizing w with
  | zero =>
    simp only [List.range_zero, List.foldlM_nil, pure, Except.pure, Except.ok.injEq, Option.some.injEq] at h
    exact ⟨fun _ => 0, by simp [← h], by simp⟩
  | succ k ih =>
    rw [List.range_succ, List.foldlM_append] at h
    obtain ⟨acc, ha, hb⟩ := ok_of_bind _ _ _ h
    simp only [List.foldlM_cons, List.foldlM_nil] at hb
    split_ifs at hb with hs
    · cases hb
    simp only [bind, Except.bind, pure, Except.pure, Except.ok.injEq, Option.bind_eq_some_iff, Option.map_eq_some_iff] at hb
    obtain ⟨a, rfl, u', hu', rfl⟩ := hb
    obtain ⟨u, e, hu⟩ := ih a ha
    refine ⟨fun b => if b = k then u' else u b, ?_, fun b hb => ?_⟩
    · rw [Finset.sum_range_succ, if_pos rfl, e]
      congr 1
      refine Finset.sum_congr rfl fun b hb => ?_
      rw [Finset.mem_range] at hb
      rw [if_neg (by omega)]
    · dsimp only
      by_cases hbk : b = k
      · rw [if_pos hbk, hbk]
        exact hu'
      · rw [if_neg hbk]
        exact hu b (by omega)

variable {loss : (Fin p → ℝ) → List X → ℝ} {sample : (Fin p → ℝ) → X → ℝ}

/-- One batch: the error of the inner product. -/
lemma cg_batch (h : ConvexMean loss sample) (reg : ℝ) (hr : 0 < reg) (L : ℝ) (hL : 0 ≤ L) (θ : Fin p → ℝ) (b : List X)
    (hb : ∀ u, u ⬝ᵥ hessAt (fun t => loss t b) θ *ᵥ u ≤ L * (u ⬝ᵥ u)) (m : ℕ) (tol : ℝ) (v x g : Fin p → ℝ)
    (hx : ihvpCG (hessAt (fun t => loss t b) θ + reg • (1 : Matrix (Fin p) (Fin p) ℝ)) m tol v = some x) :
    |g ⬝ᵥ x - g ⬝ᵥ (hessAt (fun t => loss t b) θ + reg • (1 : Matrix (Fin p) (Fin p) ℝ))⁻¹ *ᵥ v| ≤ cgBound reg L m g v := by
  have hdet := convex_det (h.loss_smooth b) (h.loss_convex b) θ hr
  set H := hessAt (fun t => loss t b) θ with hH
  have hq : ∀ u, u ⬝ᵥ (H + reg • (1 : Matrix (Fin p) (Fin p) ℝ)) *ᵥ u = u ⬝ᵥ H *ᵥ u + reg * (u ⬝ᵥ u) := by
    intro u
    rw [add_mulVec, dotProduct_add, smul_mulVec, one_mulVec, dotProduct_smul, smul_eq_mul]
  refine C156_inner _ ?_ reg (L + reg) hr (by linarith) (fun u => ?_) (fun u => ?_) v _ ?_ m tol x hx g
  · rw [transpose_add, transpose_smul, transpose_one, hH, hessAt_symm (h.loss_smooth b).contDiffAt]
  · rw [hq]
    have := convex_hess_nonneg (h.loss_smooth b) (h.loss_convex b) θ u
    linarith
  · rw [hq]
    have := hb u
    linarith
  · rw [mulVec_mulVec, mul_nonsing_inv _ hdet.isUnit, one_mulVec]

/-! ### C156 -/

/-- **C156** (against the explicit attributor). For a mean of convex losses with positive regularisation, cached batches whose Hessians have eigenvalues at most `L`, and
results which are finite, every score of `IFAttributorCG` is as close to the score of `IFAttributorExplicit` as the bound says, averaged over the checkpoints and once for
every cached batch. -/
theorem C156_against_explicit (h : ConvexMean loss sample) (target : (Fin p → ℝ) → X → ℝ) (reg : ℝ) (hr : 0 < reg) (L : ℝ) (hL : 0 ≤ L) (m : ℕ) (tol : ℝ)
    (ckpts : List (Fin p → ℝ)) (full tr te : Loader X) (h1 : 0 < tr.bs) (h2 : 0 < te.bs) (s1 : tr.supported = true) (s2 : te.supported = true)
    (s3 : full.supported = true) (hb : ∀ θ ∈ ckpts, ∀ b < full.nb, ∀ u, u ⬝ᵥ hessAt (fun t => loss t (full.batch b)) θ *ᵥ u ≤ L * (u ⬝ᵥ u))
    (hfin : ∀ θ ∈ ckpts, ∀ y ∈ te.data, ∃ w,
      cgTransTest (fun θ b => hessAt (fun t => loss t b) θ) m tol reg θ full (gradAt (fun t => target t y) θ) = .ok (some w)) :
    ∃ M M', (attribute' (cgTaskSub loss target m tol reg) ckpts (some full) none tr te).2 = .ok M ∧
      (attribute' (taskSub loss target reg) ckpts (some full) none tr te).2 = .ok M' ∧
      ∀ i (hi : i < tr.data.length) j (hj : j < te.data.length), |M.f i j - M'.f i j| ≤
        (ckpts.map fun θ => full.nb * cgBound reg L m (gradAt (fun t => loss t [tr.data[i]]) θ) (gradAt (fun t => target t te.data[j]) θ)).sum / ckpts.length := by
  obtain ⟨M, e, -, -, f⟩ := C05_attribute_entry (cgTaskSub loss target m tol reg) ckpts (some full) none tr te h1 h2 s1 s2 (by simp)
  obtain ⟨M', e', f'⟩ := C08_explicit_attribute (fun θ x => gradAt (fun t => loss t [x]) θ) (fun θ y => gradAt (fun t => target t y) θ)
    (fun θ b => hessAt (fun t => loss t b) θ) reg ckpts full tr te h1 h2 s1 s2 s3 (fun θ _ b _ => convex_det (h.loss_smooth _) (h.loss_convex _) θ hr)
  refine ⟨M, M', e, e', fun i hi j hj => ?_⟩
  rw [f i hi j hj, f' i hi j hj, ← sub_div, abs_div, Nat.abs_cast]
  refine div_le_div_of_nonneg_right ?_ (Nat.cast_nonneg _)
  have key : ∀ l : List (Fin p → ℝ), (∀ θ ∈ l, θ ∈ ckpts) →
      |(l.map fun c => score (cgTaskSub loss target m tol reg) ((some full).getD tr) none c tr.data[i] te.data[j]).sum -
        (l.map fun c => gradAt (fun t => loss t [tr.data[i]]) c ⬝ᵥ ∑ b ∈ Finset.range full.nb,
          (hessAt (fun t => loss t (full.batch b)) c + reg • (1 : Matrix (Fin p) (Fin p) ℝ))⁻¹ *ᵥ gradAt (fun t => target t te.data[j]) c).sum| ≤
        (l.map fun θ => full.nb * cgBound reg L m (gradAt (fun t => loss t [tr.data[i]]) θ) (gradAt (fun t => target t te.data[j]) θ)).sum := by
    intro l
    induction l with
    | nil => simp
    | cons θ l ih =>
      intro hl
      have hθ := hl θ (by simp)
      obtain ⟨w, hw⟩ := hfin θ hθ te.data[j] (List.getElem_mem hj)
      obtain ⟨u, ew, hu⟩ := cgTrans_some _ m tol reg θ full _ w hw
      have hs : score (cgTaskSub loss target m tol reg) ((some full).getD tr) none θ tr.data[i] te.data[j] =
          gradAt (fun t => loss t [tr.data[i]]) θ ⬝ᵥ ∑ b ∈ Finset.range full.nb, u b := by
        simp only [score, cgTaskSub, Option.getD_some, hw, ew]
        rfl
      have hone : |gradAt (fun t => loss t [tr.data[i]]) θ ⬝ᵥ ∑ b ∈ Finset.range full.nb, u b -
          gradAt (fun t => loss t [tr.data[i]]) θ ⬝ᵥ ∑ b ∈ Finset.range full.nb,
            (hessAt (fun t => loss t (full.batch b)) θ + reg • (1 : Matrix (Fin p) (Fin p) ℝ))⁻¹ *ᵥ gradAt (fun t => target t te.data[j]) θ| ≤
          full.nb * cgBound reg L m (gradAt (fun t => loss t [tr.data[i]]) θ) (gradAt (fun t => target t te.data[j]) θ) := by
        rw [dotProduct_sum, dotProduct_sum, ← Finset.sum_sub_distrib]
        refine (Finset.abs_sum_le_sum_abs _ _).trans ?_
        refine (Finset.sum_le_card_nsmul _ _ (cgBound reg L m (gradAt (fun t => loss t [tr.data[i]]) θ) (gradAt (fun t => target t te.data[j]) θ))
          fun b hb' => ?_).trans (le_of_eq ?_)
        · rw [Finset.mem_range] at hb'
          exact cg_batch h reg hr L hL θ _ (hb θ hθ b hb') m tol _ _ _ (hu b hb')
        · rw [Finset.card_range, nsmul_eq_mul]
      rw [List.map_cons, List.map_cons, List.map_cons, List.sum_cons, List.sum_cons, List.sum_cons, hs]
      have := ih fun t ht => hl t (by simp [ht])
      calc _ = |(_ - _) + (_ - _)| := by rw [add_sub_add_comm]
        _ ≤ _ := (abs_add_le _ _).trans (add_le_add hone this)
  exact key ckpts fun _ h => h

/-- **C156** (against retraining). With the trained model as the checkpoint and the training set cached as one batch, the score of `IFAttributorCG` is as close to minus the
derivative of the test target of the retrained model as the bound says. -/
theorem C156_against_retraining (h : ConvexMean loss sample) (target : (Fin p → ℝ) → X → ℝ) (reg : ℝ) (hr : 0 < reg) (L : ℝ) (hL : 0 ≤ L) (m : ℕ) (tol : ℝ)
    (data te : List X) (bs bs1 bs2 : ℕ) (hd : data ≠ []) (hbs : data.length ≤ bs) (h1 : 0 < bs1) (h2 : 0 < bs2)
    (hT : ∀ y ∈ te, Differentiable ℝ fun t => target t y) :
    ∃ θ, (∀ x, IsRetrained loss reg data x 0 θ) ∧
      ((∀ u, u ⬝ᵥ hessAt (fun t => loss t data) θ *ᵥ u ≤ L * (u ⬝ᵥ u)) →
        (∀ y ∈ te, ∃ w, cgTransTest (fun θ b => hessAt (fun t => loss t b) θ) m tol reg θ ⟨data, bs, true⟩ (gradAt (fun t => target t y) θ) = .ok (some w)) →
        ∃ M, (attribute' (cgTaskSub loss target m tol reg) [θ] (some ⟨data, bs, true⟩) none ⟨data, bs1, true⟩ ⟨te, bs2, true⟩).2 = .ok M ∧
          ∀ i (hi : i < data.length) j (hj : j < te.length),
            ∀ φ : ℝ → Fin p → ℝ, (∀ᶠ ε in 𝓝 (0 : ℝ), IsRetrained loss reg data data[i] ε (φ ε)) →
              ∃ D, HasDerivAt (fun ε => target (φ ε) te[j]) D 0 ∧
                |M.f i j - -D| ≤ cgBound reg L m (gradAt (fun t => loss t [data[i]]) θ) (gradAt (fun t => target t te[j]) θ)) := by
  obtain ⟨θ, hθ, M', e', f'⟩ := C144_scores_are_retraining_derivatives h target reg hr data te bs bs1 bs2 hd hbs h1 h2 hT
  refine ⟨θ, hθ, fun hb hfin => ?_⟩
  have hlen : 0 < data.length := List.length_pos_iff.2 hd
  have hnb : (⟨data, bs, true⟩ : Loader X).nb = 1 := by
    show (data.length + bs - 1) / bs = 1
    exact Nat.div_eq_of_lt_le (by omega) (by omega)
  have hb0 : (⟨data, bs, true⟩ : Loader X).batch 0 = data := by
    simp [Loader.batch, batchAt, List.take_of_length_le hbs]
  obtain ⟨M, M'', e, e'', f⟩ := C156_against_explicit h target reg hr L hL m tol [θ] ⟨data, bs, true⟩ ⟨data, bs1, true⟩ ⟨te, bs2, true⟩ h1 h2 rfl rfl rfl
    (by
      intro t ht b hb' u
      obtain rfl : t = θ := by simpa using ht
      have : b = 0 := by omega
      rw [this, hb0]
      exact hb u)
    (by
      intro t ht y hy
      obtain rfl : t = θ := by simpa using ht
      exact hfin y hy)
  rw [e'] at e''
  obtain rfl : M' = M'' := Except.ok.inj e''
  refine ⟨M, e, fun i hi j hj φ hφ => ⟨-M'.f i j, ((f' i hi j hj).2 φ hφ).2, ?_⟩⟩
  have := f i hi j hj
  rw [hnb] at this
  simpa using this

/-- **C156** (when it is finite). With the training set cached as one batch, a convex loss and positive regularisation, the transformation with `max_iter = m` never raises, and it
is not finite exactly if a smaller number of iterations gives the exact solution. -/
theorem C156_finite (h : ConvexMean loss sample) (reg : ℝ) (hr : 0 < reg) (m : ℕ) (tol : ℝ) (data : List X) (bs : ℕ) (hd : data ≠ []) (hbs : data.length ≤ bs)
    (θ v : Fin p → ℝ) :
    ∃ r, cgTransTest (fun θ b => hessAt (fun t => loss t b) θ) m tol reg θ ⟨data, bs, true⟩ v = .ok r ∧
      (r = none ↔ ∃ k < m, ∃ w, cgTransTest (fun θ b => hessAt (fun t => loss t b) θ) k tol reg θ ⟨data, bs, true⟩ v = .ok (some w) ∧
        (hessAt (fun t => loss t data) θ + reg • (1 : Matrix (Fin p) (Fin p) ℝ)) *ᵥ w = v) := by
  have hlen : 0 < data.length := List.length_pos_iff.2 hd
  have hnb : (⟨data, bs, true⟩ : Loader X).nb = 1 := by
    show (data.length + bs - 1) / bs = 1
    exact Nat.div_eq_of_lt_le (by omega) (by omega)
  have hb0 : (⟨data, bs, true⟩ : Loader X).batch 0 = data := by
    simp [Loader.batch, batchAt, List.take_of_length_le hbs]
  set A := hessAt (fun t => loss t data) θ + reg • (1 : Matrix (Fin p) (Fin p) ℝ) with hA
  have hval : ∀ m, cgTransTest (fun θ b => hessAt (fun t => loss t b) θ) m tol reg θ ⟨data, bs, true⟩ v = .ok (ihvpCG A m tol v) := by
    intro m
    unfold cgTransTest
    rw [hnb]
    simp only [List.range_one, List.foldlM_cons, List.foldlM_nil, hb0]
    rw [if_neg (by simp)]
    simp only [bind, Except.bind, pure, Except.pure, Option.bind_some, zero_add, Option.map_id']
    rfl
  have hS : SPD A := by
    refine ⟨?_, fun u hu => ?_⟩
    · rw [hA, transpose_add, transpose_smul, transpose_one, hessAt_symm (h.loss_smooth data).contDiffAt]
    · rw [hA, add_mulVec, dotProduct_add, smul_mulVec, one_mulVec, dotProduct_smul, smul_eq_mul]
      have h1 := convex_hess_nonneg (h.loss_smooth data) (h.loss_convex data) θ u
      have h2 : 0 < u ⬝ᵥ u := lt_of_le_of_ne (Finset.sum_nonneg fun k _ => mul_self_nonneg _) fun h => hu (dotProduct_self_eq_zero.1 h.symm)
      have h3 : 0 < reg * (u ⬝ᵥ u) := mul_pos hr h2
      linarith
  obtain ⟨k, -, ⟨x, hx, hxv⟩, hlt, hgt⟩ := C22_cg_exact A hS v tol
  refine ⟨_, hval m, ?_, ?_⟩
  · intro hn
    have hkm : k < m := by
      by_contra hc
      rcases (not_lt.1 hc).eq_or_lt with rfl | hm
      · rw [hx] at hn
        cases hn
      · obtain ⟨y, hy, -⟩ := hlt m hm
        rw [hy] at hn
        cases hn
    exact ⟨k, hkm, x, by rw [hval, hx], hxv⟩
  · rintro ⟨k', hk', w, hw, hwv⟩
    rw [hval, Except.ok.injEq] at hw
    refine hgt m (lt_of_le_of_lt ?_ hk')
    by_contra hc
    obtain ⟨y, hy, hyv⟩ := hlt k' (not_le.1 hc)
    rw [hw] at hy
    exact hyv (Option.some.inj hy ▸ hwv)

/-- A convex mean with a Hessian bounded by 1: half the squared distance to the sample. -/
example : ConvexMean (p := 1) (X := ℝ) (fun θ b => (b.map fun x => (θ 0 - x) ^ 2 / 2).sum / b.length) (fun θ x => (θ 0 - x) ^ 2 / 2) where
  mean := fun _ _ => rfl
  nonneg := fun _ _ => by positivity
  smooth := fun x => by fun_prop
  convex := fun x => by
    refine ⟨convex_univ, fun a _ b _ r q hr hq hrq => ?_⟩
    obtain rfl : q = 1 - r := by linarith
    simp only [Pi.add_apply, Pi.smul_apply, smul_eq_mul]
    nlinarith [mul_nonneg hr hq, mul_nonneg (mul_nonneg hr hq) (sq_nonneg (a 0 - b 0))]

end Verif.Attr
