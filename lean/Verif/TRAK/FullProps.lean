import Verif.TRAK.ProjRandProps

/-!
# C241: TRAK without a regulariser when the projection is as wide as the gradients, or as the training set is long
-/

namespace Verif.TRAK

open Verif.Projection MeasureTheory Finset Matrix

variable {X C : Type} {D : ℕ}

/-! ### Specification -/

/-- `w` is the smallest way of writing the gradient `h` as a combination of the gradients of the samples. -/
def Least (g : X → Fin D → ℝ) (data : List X) (h : Fin D → ℝ) (w : Fin data.length → ℝ) : Prop :=
  (∀ a, ∑ i, w i * g data[i] a = h a) ∧ ∀ v : Fin data.length → ℝ, v ≠ w → (∀ a, ∑ i, v i * g data[i] a = h a) → ∑ i, w i ^ 2 < ∑ i, v i ^ 2

/-! ### Helper lemmas -/

lemma vecMul_inj {m n : Type} [Fintype m] [Fintype n] (Φ : Matrix m n ℝ) (hc : Fintype.card m = Fintype.card n) (h : ∀ v, Φ *ᵥ v = 0 → v = 0) (u : m → ℝ)
    (hu : u ᵥ* Φ = 0) : u = 0 := by
  have hinj : Function.Injective Φ.mulVecLin := by
    rw [← LinearMap.ker_eq_bot, LinearMap.ker_eq_bot']
    exact fun v hv => h v hv
  have hsur : Function.Surjective Φ.mulVecLin :=
    (LinearMap.injective_iff_surjective_of_finrank_eq_finrank (by simp [hc])).1 hinj
  obtain ⟨v, hv⟩ := hsur u
  have : u ⬝ᵥ u = 0 := by
    have h1 : u ⬝ᵥ (Φ *ᵥ v) = 0 := by rw [dotProduct_mulVec, hu, zero_dotProduct]
    rwa [← mulVecLin_apply, hv] at h1
  exact dotProduct_self_eq_zero.1 this

lemma coef_least {d : ℕ} (φ : X → Fin d → ℝ) (data : List X) (ψ : Fin d → ℝ) (hs : Spans φ data) :
    combine φ data (coef 0 φ data ψ) = ψ ∧ ∀ v, v ≠ coef 0 φ data ψ → combine φ data v = ψ → ∑ i, coef 0 φ data ψ i ^ 2 < ∑ i, v i ^ 2 := by
  have hd := (kernel_det 0 le_rfl φ data).2 (.inr hs)
  have hcw : combine φ data (coef 0 φ data ψ) = ψ := by
    have := combine_coef 0 φ data ψ hd
    rwa [zero_smul, add_zero] at this
  refine ⟨hcw, fun v hv hcv => ?_⟩
  set w := coef 0 φ data ψ with hw
  have hz : combine φ data (v - w) = 0 := by
    have := combine_add φ data (v - w) w
    rw [sub_add_cancel, hcv, hcw] at this
    simpa using this
  have horth : ∑ i, (v - w) i * w i = 0 := by
    have := combine_dot φ data (v - w) ((kernel 0 (data.map φ))⁻¹ *ᵥ ψ)
    rw [hz] at this
    simp only [Pi.zero_apply, mul_zero, Finset.sum_const_zero] at this
    rw [this]
    exact Finset.sum_congr rfl fun i _ => by rw [hw, coef_eq]
  have h3 : 0 < ∑ i, (v - w) i ^ 2 := by
    obtain ⟨i, hi⟩ := Function.ne_iff.1 hv
    exact Finset.sum_pos' (fun _ _ => sq_nonneg _) ⟨i, Finset.mem_univ i, by
      have : v i - w i ≠ 0 := sub_ne_zero.2 hi
      simpa using pow_pos (abs_pos.2 this) 2⟩
  have h4 : ∑ i, v i ^ 2 = ∑ i, w i ^ 2 + 2 * ∑ i, (v - w) i * w i + ∑ i, (v - w) i ^ 2 := by
    rw [Finset.mul_sum, ← Finset.sum_add_distrib, ← Finset.sum_add_distrib]
    exact Finset.sum_congr rfl fun i _ => by simp only [Pi.sub_apply]; ring
  rw [h4, horth]
  linarith

/-- The projection of a combination is the combination of the projections. -/
lemma combine_map {w : ℕ} (g : X → Fin D → ℝ) (data : List X) (E : Fin D → Fin w → ℝ) (s : ℝ) (v : Fin data.length → ℝ) (j : Fin w) :
    combine (fun x j => (∑ a, g x a * E a j) * s) data v j = (∑ a, (∑ i, v i * g data[i] a) * E a j) * s := by
  simp only [combine]
  simp only [sum_mul, mul_sum]
  rw [sum_comm]
  exact sum_congr rfl fun a _ => sum_congr rfl fun i _ => by ring

/-- A spanning square projection loses nothing. -/
lemma proj_inj {w : ℕ} (hw : w = D) (g : X → Fin D → ℝ) (data : List X) (E : Fin D → Fin w → ℝ) (s : ℝ)
    (h : Spans (fun x j => (∑ a, g x a * E a j) * s) data) (u u' : Fin D → ℝ) (huu : ∀ j, (∑ a, u a * E a j) * s = (∑ a, u' a * E a j) * s) : u = u' := by
  rw [← sub_eq_zero]
  refine vecMul_inj (Matrix.of fun a j => E a j * s) (by simp [hw]) (fun v hv => h v fun x _ => ?_) _ ?_
  · have : (fun j => (∑ a, g x a * E a j) * s) = g x ᵥ* Matrix.of fun a j => E a j * s := by
      funext j
      simp only [vecMul, dotProduct, of_apply, sum_mul, mul_assoc]
    show (fun j => (∑ a, g x a * E a j) * s) ⬝ᵥ v = 0
    rw [this, ← dotProduct_mulVec, hv, dotProduct_zero]
  · funext j
    have := huu j
    simp only [vecMul, dotProduct, of_apply, Pi.sub_apply, Pi.zero_apply, sub_mul, sum_sub_distrib, sub_eq_zero]
    simp only [sum_mul, mul_assoc] at this
    exact this

/-- With as many samples as columns the representation is unique. -/
lemma rep_unique {d : ℕ} (φ : X → Fin d → ℝ) (data : List X) (hn : data.length = d) (h : Spans φ data) (v w : Fin data.length → ℝ)
    (hvw : combine φ data v = combine φ data w) : v = w := by
  rw [← sub_eq_zero]
  refine vecMul_inj (Matrix.of fun (i : Fin data.length) j => φ data[i] j) (by simp [hn]) (fun u hu => h u fun x hx => ?_) _ ?_
  · obtain ⟨i, hi, rfl⟩ := List.mem_iff_getElem.1 hx
    exact congrFun hu ⟨i, hi⟩
  · funext j
    have := congrFun hvw j
    simp only [vecMul, dotProduct, of_apply, Pi.sub_apply, Pi.zero_apply, sub_mul, sum_sub_distrib, sub_eq_zero]
    exact this

lemma sum_zipIdx (l : List C) (f : C × ℕ → ℝ) : (l.zipIdx.map f).sum = ∑ k : Fin l.length, f (l[k], k) := by
  have : l.zipIdx = List.ofFn fun k : Fin l.length => (l[k], (k : ℕ)) := by
    refine List.ext_getElem (by simp) fun i h1 h2 => by simp
  rw [this, List.map_ofFn, List.sum_ofFn]
  rfl

lemma plain_phiT (env : Env) (A : PTrak X C D) (hk : A.params.ptype = .normal ∨ A.params.ptype = .rademacher) (c : C) (k : ℕ) :
    (A.plain env).phiTarget (c, k) = fun x (j : Fin A.width) => (∑ a, A.gTarget c x a * (env.cpu D).dense A.params.ptype
      (A.params.seed + 1000 * ((j : ℕ) / min A.params.projDim 100 : ℕ) + 100000 * k) a (j % min A.params.projDim 100)) *
        (Real.sqrt A.params.projDim * Real.sqrt A.numParams)⁻¹ :=
  plain_phi env ⟨A.gTarget, A.gTarget, A.prob, A.ckpts, A.reg, A.numParams, A.projParams, A.dev⟩ hk c k

section
variable (pyInt : List Char → Option ℤ) (env : Env) (A : PTrak X C D) (hdev : A.dev = .cpu) (hk : A.params.ptype = .normal ∨ A.params.ptype = .rademacher)
  (hp : 0 < A.params.projDim) (hreg : A.reg = 0) (st : State ℝ X A.width) (hst : st.full = none) (tr te : Loader X)
  (b1 : 0 < tr.bs) (b2 : 0 < te.bs) (s1 : tr.supported = true) (s2 : te.supported = true) (n1 : tr.data ≠ []) (n2 : te.data ≠ []) (hc : A.ckpts ≠ [])
  (M : Mat ℝ) (hM : attributeP pyInt env A st te (some tr) = .ok M)
include hdev hk hp hreg hst b1 b2 s1 s2 n1 n2 hc hM

lemma scores_coef : (∀ k : Fin A.ckpts.length, Spans ((A.plain env).phiLoss (A.ckpts[k], k)) tr.data) ∧
    M.r = tr.data.length ∧ M.c = te.data.length ∧ ∀ (i : Fin tr.data.length) (j : Fin te.data.length), M.f i j =
      (∑ k : Fin A.ckpts.length, coef 0 ((A.plain env).phiLoss (A.ckpts[k], k)) tr.data ((A.plain env).phiTarget (A.ckpts[k], k) te.data[j]) i) / A.ckpts.length *
        ((∑ k : Fin A.ckpts.length, (1 - A.prob A.ckpts[k] tr.data[i])) / A.ckpts.length) := by
  have hsp := (returns_iff pyInt A hdev hk hp hreg st hst tr te b1 b2 s1 s2 n1 n2 hc env).1.1 ⟨M, hM⟩
  have hk' : A.params.ptype ≠ .sjlt ∧ A.params.ptype ≠ .grass := by rcases hk with h | h <;> rw [h] <;> simp
  have hf := (C239_features pyInt env A hdev hk' hp st).2.1 te (some tr) b2 (by simpa using b1)
  rw [hf] at hM
  have hreg' : (A.plain env).reg = 0 := hreg
  obtain ⟨M', e, hr, hcc, h4⟩ := trak_ok (A.plain env) st hst tr te b1 b2 s1 s2 n1 n2 (by simpa [PTrak.plain] using hc) fun ck hck =>
    (kernel_det _ hreg'.ge _ _).2 (.inr (hsp ck hck))
  rw [hM] at e
  cases e
  refine ⟨fun k => hsp _ (List.mem_zipIdx_iff_getElem?.2 (by simp)), hr, hcc, fun i j => ?_⟩
  rw [h4 i i.2 j j.2, hreg']
  simp only [show (A.plain env).ckpts = A.ckpts.zipIdx from rfl, sum_zipIdx, List.length_zipIdx]
  rfl

/-! ### C241 -/

/-- **C241** (as many columns as parameters). If `proj_dim` is the number of parameters and `attribute` returns scores, then they are those of the gradients themselves: up to
the factor `1 - p`, the mean over the checkpoints of the smallest coefficients that represent the test sample's gradient by the training gradients.  Neither the random
numbers nor the seed, nor the scaling have an influence. -/
theorem C241_parameters (hD : A.params.projDim = D) : ∃ w : Fin A.ckpts.length → Fin te.data.length → Fin tr.data.length → ℝ,
    (∀ k j, Least (A.gLoss A.ckpts[k]) tr.data (A.gTarget A.ckpts[k] te.data[j]) (w k j)) ∧
    ∀ (i : Fin tr.data.length) (j : Fin te.data.length), M.f i j = (∑ k, w k j i) / A.ckpts.length * ((∑ k : Fin A.ckpts.length, (1 - A.prob A.ckpts[k] tr.data[i])) / A.ckpts.length) := by
  obtain ⟨hs, -, -, hf⟩ := scores_coef pyInt env A hdev hk hp hreg st hst tr te b1 b2 s1 s2 n1 n2 hc M hM
  refine ⟨fun k j => coef 0 ((A.plain env).phiLoss (A.ckpts[k], k)) tr.data ((A.plain env).phiTarget (A.ckpts[k], k) te.data[j]), fun k j => ?_, hf⟩
  show Least _ _ _ (coef 0 ((A.plain env).phiLoss (A.ckpts[k], k)) tr.data ((A.plain env).phiTarget (A.ckpts[k], k) te.data[j]))
  have hsk := hs k
  obtain ⟨h1, h2⟩ := coef_least _ _ ((A.plain env).phiTarget (A.ckpts[k], k) te.data[j]) hsk
  generalize coef 0 ((A.plain env).phiLoss (A.ckpts[k], k)) tr.data ((A.plain env).phiTarget (A.ckpts[k], k) te.data[j]) = w at h1 h2 ⊢
  rw [plain_phiT env A hk] at h1 h2
  rw [plain_phi env A hk] at hsk h1 h2
  have hw : A.width = D := (width_dense A hk).trans hD
  constructor
  · refine fun a => congrFun (proj_inj hw _ _ _ _ hsk (fun a => ∑ i, w i * A.gLoss A.ckpts[k] tr.data[i] a) (A.gTarget A.ckpts[k] te.data[j]) fun l => ?_) a
    have := congrFun h1 l
    rwa [combine_map] at this
  · intro v hv he
    refine h2 v hv (funext fun l => ?_)
    rw [combine_map]
    exact congrArg (· * _) (sum_congr rfl fun a _ => by rw [he a])

/-- **C241** (seeds). So with `proj_dim` equal to the number of parameters any two projections with which `attribute` returns scores give the same ones, even with different
seeds and types. -/
theorem C241_same (hD : A.params.projDim = D) (env' : Env) (A' : PTrak X C D) (hA : A'.gLoss = A.gLoss ∧ A'.gTarget = A.gTarget ∧ A'.prob = A.prob ∧ A'.ckpts = A.ckpts)
    (hdev' : A'.dev = .cpu) (hk' : A'.params.ptype = .normal ∨ A'.params.ptype = .rademacher) (hD' : A'.params.projDim = D) (hreg' : A'.reg = 0)
    (st' : State ℝ X A'.width) (hst' : st'.full = none) (M' : Mat ℝ) (hM' : attributeP pyInt env' A' st' te (some tr) = .ok M') :
    M'.r = M.r ∧ M'.c = M.c ∧ ∀ i < M.r, ∀ j < M.c, M'.f i j = M.f i j := by
  obtain ⟨w, hw, hf⟩ := C241_parameters pyInt env A hdev hk hp hreg st hst tr te b1 b2 s1 s2 n1 n2 hc M hM hD
  obtain ⟨-, hr, hcc, -⟩ := scores_coef pyInt env A hdev hk hp hreg st hst tr te b1 b2 s1 s2 n1 n2 hc M hM
  obtain ⟨g, t, p, ck, reg', np, pp, dv⟩ := A'
  obtain ⟨rfl, rfl, rfl, rfl⟩ := hA
  obtain ⟨w', hw', hf'⟩ := C241_parameters pyInt env' _ hdev' hk' (by rw [hD', ← hD]; exact hp) hreg' st' hst' tr te b1 b2 s1 s2 n1 n2 hc M' hM' hD'
  obtain ⟨-, hr', hcc', -⟩ := scores_coef pyInt env' _ hdev' hk' (by rw [hD', ← hD]; exact hp) hreg' st' hst' tr te b1 b2 s1 s2 n1 n2 hc M' hM'
  have hww : w' = w := by
    funext k j
    by_contra hne
    exact lt_asymm ((hw k j).2 _ hne (hw' k j).1) ((hw' k j).2 _ (Ne.symm hne) (hw k j).1)
  refine ⟨hr'.trans hr.symm, hcc'.trans hcc.symm, fun i hi j hj => ?_⟩
  rw [hr] at hi
  rw [hcc] at hj
  have e := hf ⟨i, hi⟩ ⟨j, hj⟩
  have e' := hf' ⟨i, hi⟩ ⟨j, hj⟩
  rw [hww] at e'
  exact e'.trans e.symm

/-- **C241** (as many columns as training samples). If there are `proj_dim` training samples and `attribute` returns scores, then a test sample whose gradient is, at every
checkpoint, a combination of the training gradients gets the coefficients of that combination, up to the factor `1 - p`, whatever the projection is. -/
theorem C241_samples (hn : tr.data.length = A.params.projDim) (j : Fin te.data.length) (w : Fin A.ckpts.length → Fin tr.data.length → ℝ)
    (hw : ∀ k a, ∑ i, w k i * A.gLoss A.ckpts[k] tr.data[i] a = A.gTarget A.ckpts[k] te.data[j] a) (i : Fin tr.data.length) :
    M.f i j = (∑ k, w k i) / A.ckpts.length * ((∑ k : Fin A.ckpts.length, (1 - A.prob A.ckpts[k] tr.data[i])) / A.ckpts.length) := by
  obtain ⟨hs, -, -, hf⟩ := scores_coef pyInt env A hdev hk hp hreg st hst tr te b1 b2 s1 s2 n1 n2 hc M hM
  rw [hf i j]
  refine congrArg (· / (A.ckpts.length : ℝ) * _) (sum_congr rfl fun k _ => congrFun ?_ i)
  have hsk := hs k
  refine rep_unique _ _ (hn.trans (width_dense A hk).symm) hsk _ _ ?_
  rw [(coef_least _ _ ((A.plain env).phiTarget (A.ckpts[k], k) te.data[j]) hsk).1, plain_phiT env A hk, plain_phi env A hk]
  funext l
  rw [combine_map]
  exact congrArg (· * _) (sum_congr rfl fun a _ => by rw [hw k a])

/-- **C241** (scores of the training samples). So if the target function is the loss, then with `proj_dim` training samples every training sample, used as a test sample,
is attributed to itself alone: the scores do not tell anything about the data. -/
theorem C241_itself (hn : tr.data.length = A.params.projDim) (ht : A.gTarget = A.gLoss) (hd : te.data = tr.data) (i j : Fin tr.data.length) :
    M.f i j = if i = j then (∑ k : Fin A.ckpts.length, (1 - A.prob A.ckpts[k] tr.data[i])) / A.ckpts.length else 0 := by
  have hl : te.data.length = tr.data.length := by rw [hd]
  have := C241_samples pyInt env A hdev hk hp hreg st hst tr te b1 b2 s1 s2 n1 n2 hc M hM hn (Fin.cast hl.symm j) (fun _ i => if i = j then 1 else 0)
    (fun k a => by simp [ht, hd]) i
  have hK : (A.ckpts.length : ℝ) ≠ 0 := by
    have := List.length_pos_of_ne_nil hc
    positivity
  rw [show ((Fin.cast hl.symm j : Fin te.data.length) : ℕ) = j from rfl] at this
  rw [this]
  by_cases h : i = j
  · simp [h, hK]
  · simp [h]

end

section
variable (pyInt : List Char → Option ℤ) (env : Env) (A : PTrak X C D) (hdev : A.dev = .cpu) (hk : A.params.ptype = .normal ∨ A.params.ptype = .rademacher)
  (hp : 0 < A.params.projDim) (hreg : A.reg = 0) (st : State ℝ X A.width) (hst : st.full = none) (tr : Loader X)
  (b1 : 0 < tr.bs) (s1 : tr.supported = true) (n1 : tr.data ≠ []) (hc : A.ckpts ≠ [])
  (M : Mat ℝ) (hM : selfAttributeP pyInt env A st (some tr) = .ok M)
include hdev hk hp hreg hst b1 s1 n1 hc hM

lemma self_coef : (∀ k : Fin A.ckpts.length, Spans ((A.plain env).phiLoss (A.ckpts[k], k)) tr.data) ∧
    ∀ i : Fin tr.data.length, M.f i 0 =
      (∑ k : Fin A.ckpts.length, coef 0 ((A.plain env).phiLoss (A.ckpts[k], k)) tr.data ((A.plain env).phiLoss (A.ckpts[k], k) tr.data[i]) i) / A.ckpts.length *
        ((∑ k : Fin A.ckpts.length, (1 - A.prob A.ckpts[k] tr.data[i])) / A.ckpts.length) := by
  have hsp := ((others_iff pyInt A hdev hk hp hreg st tr b1 s1 n1 env).2.2 hst hc).1.1 ⟨M, hM⟩
  have hk' : A.params.ptype ≠ .sjlt ∧ A.params.ptype ≠ .grass := by rcases hk with h | h <;> rw [h] <;> simp
  have hf := (C239_features pyInt env A hdev hk' hp st).2.2 (some tr) (by simpa using b1)
  rw [hf] at hM
  have hreg' : (A.plain env).reg = 0 := hreg
  have hdet : ∀ ck ∈ (A.plain env).ckpts, (kernel (A.plain env).reg (tr.data.map ((A.plain env).phiLoss ck))).det ≠ 0 := fun ck hck =>
    (kernel_det _ hreg'.ge _ _).2 (.inr (hsp ck hck))
  simp only [kernel_eq_gram] at hdet
  obtain ⟨M', e, -, -, h4⟩ := C14_self_column (A.plain env) st hst tr b1 s1 n1 (by simpa [PTrak.plain] using hc) hdet
  rw [hM] at e
  cases e
  simp only [← kernel_eq_gram] at h4
  refine ⟨fun k => hsp _ (List.mem_zipIdx_iff_getElem?.2 (by simp)), fun i => ?_⟩
  rw [h4 i i.2, hreg']
  simp only [show (A.plain env).ckpts = A.ckpts.zipIdx from rfl, sum_zipIdx, List.length_zipIdx]
  rfl

/-- **C241** (self scores). With `proj_dim` training samples all self scores that `self_attribute` returns are the mean of `1 - p`, whatever the data and the projection; with
`proj_dim` equal to the number of parameters they are the samples' own coefficients in the smallest representation of their unprojected gradients. -/
theorem C241_self :
    (tr.data.length = A.params.projDim → ∀ i : Fin tr.data.length, M.f i 0 = (∑ k : Fin A.ckpts.length, (1 - A.prob A.ckpts[k] tr.data[i])) / A.ckpts.length) ∧
    (A.params.projDim = D → ∃ w : Fin A.ckpts.length → Fin tr.data.length → Fin tr.data.length → ℝ,
      (∀ k i, Least (A.gLoss A.ckpts[k]) tr.data (A.gLoss A.ckpts[k] tr.data[i]) (w k i)) ∧
      ∀ i : Fin tr.data.length, M.f i 0 = (∑ k, w k i i) / A.ckpts.length * ((∑ k : Fin A.ckpts.length, (1 - A.prob A.ckpts[k] tr.data[i])) / A.ckpts.length)) := by
  obtain ⟨hs, hf⟩ := self_coef pyInt env A hdev hk hp hreg st hst tr b1 s1 n1 hc M hM
  have hK : (A.ckpts.length : ℝ) ≠ 0 := by
    have := List.length_pos_of_ne_nil hc
    positivity
  constructor
  · intro hn i
    rw [hf i]
    have : ∀ k : Fin A.ckpts.length, coef 0 ((A.plain env).phiLoss (A.ckpts[k], k)) tr.data ((A.plain env).phiLoss (A.ckpts[k], k) tr.data[i]) i = 1 := fun k => by
      have h := rep_unique _ _ (hn.trans (width_dense A hk).symm) (hs k) (coef 0 ((A.plain env).phiLoss (A.ckpts[k], k)) tr.data ((A.plain env).phiLoss (A.ckpts[k], k) tr.data[i]))
        (fun l => if l = i then 1 else 0) (by
          rw [(coef_least _ _ _ (hs k)).1]
          funext l
          simp [combine])
      simpa using congrFun h i
    simp only [this]
    simp [hK]
  · intro hD
    refine ⟨fun k i => coef 0 ((A.plain env).phiLoss (A.ckpts[k], k)) tr.data ((A.plain env).phiLoss (A.ckpts[k], k) tr.data[i]), fun k i => ?_, hf⟩
    show Least _ _ _ (coef 0 ((A.plain env).phiLoss (A.ckpts[k], k)) tr.data ((A.plain env).phiLoss (A.ckpts[k], k) tr.data[i]))
    have hsk := hs k
    obtain ⟨h1, h2⟩ := coef_least _ _ ((A.plain env).phiLoss (A.ckpts[k], k) tr.data[i]) hsk
    generalize coef 0 ((A.plain env).phiLoss (A.ckpts[k], k)) tr.data ((A.plain env).phiLoss (A.ckpts[k], k) tr.data[i]) = w at h1 h2 ⊢
    rw [plain_phi env A hk] at hsk h1 h2
    have hw : A.width = D := (width_dense A hk).trans hD
    constructor
    · refine fun a => congrFun (proj_inj hw _ _ _ _ hsk (fun a => ∑ l, w l * A.gLoss A.ckpts[k] tr.data[l] a) (A.gLoss A.ckpts[k] tr.data[i]) fun l => ?_) a
      have := congrFun h1 l
      rwa [combine_map] at this
    · intro v hv he
      refine h2 v hv (funext fun l => ?_)
      rw [combine_map]
      exact congrArg (· * _) (sum_congr rfl fun a _ => by rw [he a])

end

/-! ### The hypotheses are met -/

/-- Two samples, two parameters and two columns: almost surely scores are returned, and then the test sample with gradient `(1, 2)`, which is `2 (1, 1) - (1, 0)`, gets
the scores `-1/2` and `1`. -/
example (pyInt : List Char → Option ℤ) (base : Env) : ∀ᵐ G ∂(TracIn.noise .normal), ∃ M, attributeP pyInt (TracIn.envOf base G) (exTrak 2 .normal) fresh
    ⟨[1], 1, true⟩ (some ⟨[0, 1], 2, true⟩) = .ok M ∧ M.f 0 0 = -1 / 2 ∧ M.f 1 0 = 1 := by
  have h := C239_almost pyInt base (exTrak 2 .normal) rfl rfl (by show 0 < 2; norm_num) (by show 0 < 2; norm_num) rfl fresh rfl ⟨[0, 1], 2, true⟩ ⟨[1], 1, true⟩ (by simp) (by simp)
    rfl rfl (by simp) (by simp) (by simp [exTrak]) fun _ _ => exTrak_rich
  filter_upwards [h] with G hG
  obtain ⟨M, hM⟩ := hG.1
  have hs := C241_samples pyInt (TracIn.envOf base G) (exTrak 2 .normal) rfl (.inl rfl) (by show 0 < 2; norm_num) rfl fresh rfl ⟨[0, 1], 2, true⟩ ⟨[1], 1, true⟩ (by simp) (by simp)
    rfl rfl (by simp) (by simp) (by simp [exTrak]) M hM rfl ⟨0, by simp⟩ (fun _ => ![-1, 2])
    (fun k a => by
      simp only [exTrak]
      fin_cases a <;> simp <;> norm_num)
  have hl : (exTrak 2 .normal).ckpts.length = 1 := rfl
  have hu : ∀ x : ℝ, ∑ _k : Fin (exTrak 2 .normal).ckpts.length, x = x := fun x => by rw [sum_const, card_univ, Fintype.card_fin, hl, one_smul]
  have hq : ∀ c x, (exTrak 2 .normal).prob c x = 1 / 2 := fun _ _ => rfl
  refine ⟨M, hM, ?_, ?_⟩
  · refine (hs ⟨0, by simp⟩).trans ?_
    simp only [hl, hq, hu]
    norm_num
  · refine (hs ⟨1, by simp⟩).trans ?_
    simp only [hl, hq, hu]
    norm_num

/-- The self scores of the two samples are almost surely one half. -/
example (pyInt : List Char → Option ℤ) (base : Env) : ∀ᵐ G ∂(TracIn.noise .normal), ∃ M, selfAttributeP pyInt (TracIn.envOf base G) (exTrak 2 .normal) fresh
    (some ⟨[0, 1], 2, true⟩) = .ok M ∧ ∀ i : Fin 2, M.f i 0 = 1 / 2 := by
  have h := C239_almost pyInt base (exTrak 2 .normal) rfl rfl (by show 0 < 2; norm_num) (by show 0 < 2; norm_num) rfl fresh rfl ⟨[0, 1], 2, true⟩ ⟨[1], 1, true⟩ (by simp) (by simp)
    rfl rfl (by simp) (by simp) (by simp [exTrak]) fun _ _ => exTrak_rich
  filter_upwards [h] with G hG
  obtain ⟨M, hM⟩ := hG.2.2
  have hs := (C241_self pyInt (TracIn.envOf base G) (exTrak 2 .normal) rfl (.inl rfl) (by show 0 < 2; norm_num) rfl fresh rfl ⟨[0, 1], 2, true⟩ (by simp) rfl (by simp)
    (by simp [exTrak]) M hM).1 rfl
  have hl : (exTrak 2 .normal).ckpts.length = 1 := rfl
  have hu : ∀ x : ℝ, ∑ _k : Fin (exTrak 2 .normal).ckpts.length, x = x := fun x => by rw [sum_const, card_univ, Fintype.card_fin, hl, one_smul]
  have hq : ∀ c x, (exTrak 2 .normal).prob c x = 1 / 2 := fun _ _ => rfl
  refine ⟨M, hM, fun i => (hs i).trans ?_⟩
  simp only [hl, hq, hu]
  norm_num

end Verif.TRAK
