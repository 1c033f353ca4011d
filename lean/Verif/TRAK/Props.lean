import Verif.TRAK.Lemmas
import Mathlib.LinearAlgebra.Matrix.ToLinearEquiv
import Mathlib.Algebra.Order.BigOperators.Ring.Finset
import Mathlib.Data.Real.Basic
import Mathlib.LinearAlgebra.FiniteDimensional.Lemmas
import Mathlib.Data.Rat.Defs
import Mathlib.Tactic.NormNum

/-! # C12–C14: TRAK -/

namespace Verif.TRAK

open Matrix

variable {R X C : Type} {d : Nat} [Field R]

/-! ## C12 -/

/-- **C12.** If `cache(train)` succeeds, `attribute(test)` afterwards returns (or raises) exactly what `attribute(test, train)`
returns (or raises) on a fresh attributor. -/
theorem C12_cached_eq_uncached (A : Attributor R X C d) (st0 : State R X d) (full te : Loader X) (st : State R X d)
    (h : cache A st0 full = .ok st) : attribute' A st te none = attribute' A fresh te (some full) := by
  obtain ⟨s, h1, h2⟩ := bind_ok h
  cases h2
  have := lockstep A full te ⟨some full, s.1, s.2⟩ A.ckpts s h1 (List.prefix_refl _)
  simp only [attribute', fresh, Option.isSome_some, Option.isSome_none, Option.isNone_some, Option.isNone_none,
    Bool.and_false, Bool.false_eq_true, if_false, if_true, Bool.and_true]
  simp only [fresh] at this
  rw [this]
  cases A.ckpts.zipIdx.foldlM (attrStep A ⟨some full, s.1, s.2⟩ none te) (none, none) with
  | error e => rfl
  | ok p => rfl

/-- **C12.** Supplying a training loader after caching one, or none without caching, raises `ValueError`. -/
theorem C12_value_errors (A : Attributor R X C d) (st : State R X d) (te tr full : Loader X) :
    (st.full = some full → attribute' A st te (some tr) = .error .valueError) ∧
    (st.full = none → attribute' A st te none = .error .valueError) := by
  constructor <;> intro h <;> simp [attribute', h]

/-- **C12.** `cache` remembers the loader whatever was cached before, and succeeds on every non-empty supported loader whose
regularised Gram matrices are nonsingular. -/
theorem C12_cache_succeeds (A : Attributor R X C d) (st0 : State R X d) (full : Loader X) (hb : 0 < full.bs)
    (hs : full.supported = true) (hne : full.data ≠ [])
    (hdet : ∀ c ∈ A.ckpts, (kernel A.reg (full.data.map (A.phiLoss c))).det ≠ 0) :
    ∃ st, cache A st0 full = .ok st ∧ st.full = some full := by
  have key : ∀ cs : List C, (∀ c ∈ cs, c ∈ A.ckpts) → ∃ s, cacheFold A full cs = .ok s := by
    intro cs
    induction cs using List.reverseRecOn with
    | nil => intro _; exact ⟨_, rfl⟩
    | append_singleton cs c ih =>
      intro hc
      obtain ⟨s, e⟩ := ih (fun c h => hc c (by simp [h]))
      unfold cacheFold at e ⊢
      refine ⟨(s.1 ++ [(full.data.map (A.phiLoss c)).map ((kernel A.reg (full.data.map (A.phiLoss c)))⁻¹ *ᵥ ·)],
        some (runQ s.2 cs.length (full.data.map (fun x => 1 - A.prob c x)))), ?_⟩
      · rw [List.zipIdx_append, List.foldlM_append, e]
        simp only [bind, Except.bind, List.zipIdx_singleton, Nat.zero_add, List.foldlM_cons, List.foldlM_nil, trainPart,
          catRows_ok full _ hb hs hne, solveT, if_neg (hdet c (hc c (by simp))), pure, Except.pure]
  obtain ⟨s, e⟩ := key A.ckpts (fun _ h => h)
  exact ⟨⟨some full, s.1, s.2⟩, by unfold cache; unfold cacheFold at e; rw [e]; rfl, rfl⟩

/-! ## C13 -/

/-- Specification: regularised Gram matrix `ΦᵀΦ + λI` of the features of a data set, in Mathlib's matrix notation. -/
def gram (lam : R) (n : Nat) (Φ : Matrix (Fin n) (Fin d) R) : Matrix (Fin d) (Fin d) R := Φᵀ * Φ + lam • 1

/-- Specification: feature matrix of a data set at a checkpoint. -/
def feat (A : Attributor R X C d) (c : C) (data : List X) : Matrix (Fin data.length) (Fin d) R :=
  fun i => A.phiLoss c data[i]

lemma kernel_eq_gram (A : Attributor R X C d) (c : C) (data : List X) :
    kernel A.reg (data.map (A.phiLoss c)) = gram A.reg data.length (feat A c data) := by
  ext a b
  simp only [kernel, gram, Matrix.add_apply, Matrix.mul_apply, Matrix.transpose_apply, feat, Matrix.smul_apply,
    Matrix.one_apply, smul_eq_mul, mul_ite, mul_one, mul_zero]
  congr 1
  rw [← Fin.sum_univ_getElem, List.map_map]
  rw [← Equiv.sum_comp (finCongr (by simp : data.length = (data.map ((fun φ => φ a * φ b) ∘ A.phiLoss c)).length))]
  simp

/-- Value of a running average. -/
def valM (a : Option (Mat R)) (j i : Nat) : R := match a with | some M => M.f j i | none => 0
def valQ (a : Option (List R)) (i : Nat) : R := match a with | some l => (l[i]?).getD 0 | none => 0

lemma avg_step [CharZero R] (m : Nat) (x y : R) : (x / (m : R) * m + y) / ((m + 1 : Nat) : R) = (x * (if m = 0 then 0 else 1) + y) / ((m + 1 : Nat) : R) := by
  rcases Nat.eq_zero_or_pos m with h | h
  · subst h; simp
  · have : (m : R) ≠ 0 := Nat.cast_ne_zero.2 h.ne'
    rw [if_neg h.ne', mul_one]; field_simp

lemma fold_spec [CharZero R] (A : Attributor R X C d) (st : State R X d) (tr te : Loader X)
    (b1 : 0 < tr.bs) (b2 : 0 < te.bs) (s1 : tr.supported = true) (s2 : te.supported = true)
    (n1 : tr.data ≠ []) (n2 : te.data ≠ []) (cs : List C)
    (hdet : ∀ c ∈ cs, (kernel A.reg (tr.data.map (A.phiLoss c))).det ≠ 0) :
    ∃ a q, cs.zipIdx.foldlM (attrStep A st (some tr) te) (none, none) = .ok (a, q) ∧
      (cs ≠ [] → ∃ M l, a = some M ∧ q = some l ∧ M.r = te.data.length ∧ M.c = tr.data.length ∧ l.length = tr.data.length) ∧
      ∀ i (hi : i < tr.data.length) j (hj : j < te.data.length),
        valM a j i = (cs.map (fun c => A.phiTarget c te.data[j] ⬝ᵥ
          ((kernel A.reg (tr.data.map (A.phiLoss c)))⁻¹ *ᵥ A.phiLoss c tr.data[i]))).sum / (cs.length : R) ∧
        valQ q i = (cs.map (fun c => 1 - A.prob c tr.data[i])).sum / (cs.length : R) := by
  induction cs using List.reverseRecOn with
  | nil => exact ⟨none, none, rfl, by simp, by simp [valM, valQ]⟩
  | append_singleton cs c ih =>
    obtain ⟨a, q, e, hs, hv⟩ := ih (fun c h => hdet c (by simp [h]))
    have hd := hdet c (by simp)
    refine ⟨some (runMat a cs.length (prod (te.data.map (A.phiTarget c))
        ((tr.data.map (A.phiLoss c)).map ((kernel A.reg (tr.data.map (A.phiLoss c)))⁻¹ *ᵥ ·)))),
      some (runQ q cs.length (tr.data.map (fun x => 1 - A.prob c x))), ?_, ?_, ?_⟩
    · rw [List.zipIdx_append, List.foldlM_append, e]
      simp only [bind, Except.bind, List.zipIdx_singleton, Nat.zero_add, List.foldlM_cons, List.foldlM_nil, attrStep, trainPart,
        catRows_ok tr _ b1 s1 n1, catRows_ok te _ b2 s2 n2, solveT, if_neg hd, pure, Except.pure]
    · intro _
      exact ⟨_, _, rfl, rfl, by simp [runMat, prod], by simp [runMat, prod], by simp [runQ]⟩
    · intro i hi j hj
      obtain ⟨h1, h2⟩ := hv i hi j hj
      constructor
      · have : valM (some (runMat a cs.length (prod (te.data.map (A.phiTarget c))
          ((tr.data.map (A.phiLoss c)).map ((kernel A.reg (tr.data.map (A.phiLoss c)))⁻¹ *ᵥ ·))))) j i
          = (valM a j i * (cs.length : R) + A.phiTarget c te.data[j] ⬝ᵥ
          ((kernel A.reg (tr.data.map (A.phiLoss c)))⁻¹ *ᵥ A.phiLoss c tr.data[i])) / ((cs.length + 1 : Nat) : R) := by
          cases a <;> simp [valM, runMat, prod, hi, hj]
        rw [this, h1, avg_step]
        by_cases h0 : cs = []
        · subst h0; simp
        · rw [if_neg (fun h => h0 (List.length_eq_zero_iff.1 h))]
          simp
      · have : valQ (some (runQ q cs.length (tr.data.map (fun x => 1 - A.prob c x)))) i
          = (valQ q i * (cs.length : R) + (1 - A.prob c tr.data[i])) / ((cs.length + 1 : Nat) : R) := by
          cases q <;> simp [valQ, runQ, hi]
        rw [this, h2, avg_step]
        by_cases h0 : cs = []
        · subst h0; simp
        · rw [if_neg (fun h => h0 (List.length_eq_zero_iff.1 h))]
          simp

/-- **C13.** The TRAK score of training sample `i` on test sample `j` is
(mean over checkpoints of `ψ_jᵀ (ΦᵀΦ+λI)⁻¹ φ_i`) · (mean over checkpoints of `1 - p_i`), for every number of checkpoints `≥ 1`, and the
result has shape `(n_train, n_test)`. -/
theorem C13_trak_entry [CharZero R] (A : Attributor R X C d) (st : State R X d) (hst : st.full = none) (tr te : Loader X)
    (b1 : 0 < tr.bs) (b2 : 0 < te.bs) (s1 : tr.supported = true) (s2 : te.supported = true)
    (n1 : tr.data ≠ []) (n2 : te.data ≠ []) (hc : A.ckpts ≠ [])
    (hdet : ∀ c ∈ A.ckpts, (gram A.reg tr.data.length (feat A c tr.data)).det ≠ 0) :
    ∃ M, attribute' A st te (some tr) = .ok M ∧ M.r = tr.data.length ∧ M.c = te.data.length ∧
      ∀ i (hi : i < tr.data.length) j (hj : j < te.data.length),
        M.f i j = (A.ckpts.map (fun c => A.phiTarget c te.data[j] ⬝ᵥ
            ((gram A.reg tr.data.length (feat A c tr.data))⁻¹ *ᵥ A.phiLoss c tr.data[i]))).sum / (A.ckpts.length : R)
          * ((A.ckpts.map (fun c => 1 - A.prob c tr.data[i])).sum / (A.ckpts.length : R)) := by
  simp only [← kernel_eq_gram] at hdet ⊢
  obtain ⟨a, q, e, hs, hv⟩ := fold_spec A st tr te b1 b2 s1 s2 n1 n2 A.ckpts hdet
  obtain ⟨M, l, rfl, rfl, hr, hcc, hl⟩ := hs hc
  refine ⟨⟨M.c, M.r, fun i j => M.f j i * (l[i]?).getD 0⟩, ?_, hcc, hr, fun i hi j hj => ?_⟩
  · simp only [attribute', hst, Option.isSome_some, Option.isSome_none, Option.isNone_some,
      Bool.and_false, Bool.false_and, Bool.false_eq_true, if_false, if_true, e]
    rfl
  · obtain ⟨h1, h2⟩ := hv i hi j hj
    rw [← h1, ← h2]; rfl

/-- **C13.** For `λ > 0` the regularised Gram matrix is nonsingular for every feature matrix, in particular with fewer samples than
projection dimensions. -/
theorem C13_gram_nonsingular (lam : ℝ) (hl : 0 < lam) (n : Nat) (Φ : Matrix (Fin n) (Fin d) ℝ) : (gram lam n Φ).det ≠ 0 := by
  intro h
  obtain ⟨v, hv, h0⟩ := Matrix.exists_mulVec_eq_zero_iff.2 h
  have h1 : v ⬝ᵥ (gram lam n Φ *ᵥ v) = (∑ i, (Φ *ᵥ v) i ^ 2) + lam * ∑ k, v k ^ 2 := by
    rw [gram, add_mulVec, dotProduct_add, ← mulVec_mulVec, dotProduct_mulVec, vecMul_transpose, smul_mulVec, one_mulVec,
      dotProduct_smul]
    simp [dotProduct, pow_two]
  rw [h0, dotProduct_zero] at h1
  have h2 : 0 ≤ ∑ i, (Φ *ᵥ v) i ^ 2 := Finset.sum_nonneg fun _ _ => sq_nonneg _
  have h3 : 0 ≤ ∑ k, v k ^ 2 := Finset.sum_nonneg fun _ _ => sq_nonneg _
  have h4 : ∑ k, v k ^ 2 = 0 := by nlinarith
  rw [Finset.sum_eq_zero_iff_of_nonneg (fun _ _ => sq_nonneg _)] at h4
  apply hv
  funext k
  simpa using h4 k (Finset.mem_univ k)

/-- **C13.** With a single checkpoint and without regularisation, a feature matrix with fewer rows than columns makes the call
raise. -/
theorem C13_unregularised_raises (A : Attributor R X C d) (c : C) (hA : A.ckpts = [c]) (hreg : A.reg = 0)
    (st : State R X d) (hst : st.full = none) (tr te : Loader X)
    (b1 : 0 < tr.bs) (b2 : 0 < te.bs) (s1 : tr.supported = true) (s2 : te.supported = true)
    (n1 : tr.data ≠ []) (n2 : te.data ≠ []) (hlt : tr.data.length < d) :
    attribute' A st te (some tr) = .error .runtimeError := by
  have hdet : (kernel A.reg (tr.data.map (A.phiLoss c))).det = 0 := by
    rw [kernel_eq_gram, hreg, gram, zero_smul, add_zero]
    apply Matrix.exists_mulVec_eq_zero_iff.1
    have hk := LinearMap.ker_ne_bot_of_finrank_lt (f := (feat A c tr.data).mulVecLin) (by simpa using hlt)
    obtain ⟨v, hv, hv0⟩ := (Submodule.ne_bot_iff _).1 hk
    refine ⟨v, hv0, ?_⟩
    rw [← mulVec_mulVec, show feat A c tr.data *ᵥ v = 0 from hv, mulVec_zero]
  simp only [attribute', hst, Option.isSome_some, Option.isSome_none, Option.isNone_some,
      Bool.and_false, Bool.false_and, Bool.false_eq_true, if_false, if_true, hA, List.zipIdx_singleton, List.foldlM_cons,
      attrStep, trainPart, bind, Except.bind, catRows_ok tr _ b1 s1 n1, catRows_ok te _ b2 s2 n2, solveT, hdet, pure, Except.pure]

/-! ## C14 -/

/-- **C14 (disagreement).** `self_attribute()` without a loader raises `AttributeError` in every state, in particular after `cache`. -/
theorem C14_self_no_loader_raises (A : Attributor R X C d) (st : State R X d) :
    selfAttribute A st none = .error .attributeError := rfl

lemma self_fold_spec [CharZero R] (A : Attributor R X C d) (tr : Loader X)
    (b1 : 0 < tr.bs) (s1 : tr.supported = true) (n1 : tr.data ≠ []) (cs : List C)
    (hdet : ∀ c ∈ cs, (kernel A.reg (tr.data.map (A.phiLoss c))).det ≠ 0) :
    ∃ a q, cs.zipIdx.foldlM (selfStep A tr) (none, none) = .ok (a, q) ∧
      (cs ≠ [] → ∃ M l, a = some M ∧ q = some l ∧ M.r = 1 ∧ M.c = tr.data.length ∧ l.length = tr.data.length) ∧
      ∀ i (hi : i < tr.data.length),
        valM a 0 i = (cs.map (fun c => A.phiLoss c tr.data[i] ⬝ᵥ
          ((kernel A.reg (tr.data.map (A.phiLoss c)))⁻¹ *ᵥ A.phiLoss c tr.data[i]))).sum / (cs.length : R) ∧
        valQ q i = (cs.map (fun c => 1 - A.prob c tr.data[i])).sum / (cs.length : R) := by
  induction cs using List.reverseRecOn with
  | nil => exact ⟨none, none, rfl, by simp, by simp [valM, valQ]⟩
  | append_singleton cs c ih =>
    obtain ⟨a, q, e, hs, hv⟩ := ih (fun c h => hdet c (by simp [h]))
    have hd := hdet c (by simp)
    refine ⟨some (runMat a cs.length ⟨1, (tr.data.map (A.phiLoss c)).length, fun _ i =>
        match (tr.data.map (A.phiLoss c))[i]?,
          ((tr.data.map (A.phiLoss c)).map ((kernel A.reg (tr.data.map (A.phiLoss c)))⁻¹ *ᵥ ·))[i]? with
        | some φ, some v => φ ⬝ᵥ v
        | _, _ => 0⟩),
      some (runQ q cs.length (tr.data.map (fun x => 1 - A.prob c x))), ?_, ?_, ?_⟩
    · rw [List.zipIdx_append, List.foldlM_append, e]
      simp only [bind, Except.bind, List.zipIdx_singleton, Nat.zero_add, List.foldlM_cons, List.foldlM_nil, selfStep,
        trainPart, catRows_ok tr _ b1 s1 n1, solveT, if_neg hd, pure, Except.pure]
      rfl
    · intro _
      exact ⟨_, _, rfl, rfl, by simp [runMat], by simp [runMat], by simp [runQ]⟩
    · intro i hi
      obtain ⟨h1, h2⟩ := hv i hi
      constructor
      · have : ∀ D : Mat R, valM (some (runMat a cs.length D)) 0 i
          = (valM a 0 i * (cs.length : R) + D.f 0 i) / ((cs.length + 1 : Nat) : R) := by
          intro D; cases a <;> simp [valM, runMat]
        rw [this, h1, avg_step]
        by_cases h0 : cs = []
        · subst h0; simp [hi]
        · rw [if_neg (fun h => h0 (List.length_eq_zero_iff.1 h))]
          simp [hi]
      · have : valQ (some (runQ q cs.length (tr.data.map (fun x => 1 - A.prob c x)))) i
          = (valQ q i * (cs.length : R) + (1 - A.prob c tr.data[i])) / ((cs.length + 1 : Nat) : R) := by
          cases q <;> simp [valQ, runQ, hi]
        rw [this, h2, avg_step]
        by_cases h0 : cs = []
        · subst h0; simp
        · rw [if_neg (fun h => h0 (List.length_eq_zero_iff.1 h))]
          simp

/-- **C14.** With a loader (and nothing cached), `self_attribute` returns a matrix of shape `(n, 1)`, not a vector of length `n`; its
entry `(i, 0)` is the TRAK formula with the loss features on both sides. -/
theorem C14_self_column [CharZero R] (A : Attributor R X C d) (st : State R X d) (hst : st.full = none) (tr : Loader X)
    (b1 : 0 < tr.bs) (s1 : tr.supported = true) (n1 : tr.data ≠ []) (hc : A.ckpts ≠ [])
    (hdet : ∀ c ∈ A.ckpts, (gram A.reg tr.data.length (feat A c tr.data)).det ≠ 0) :
    ∃ M, selfAttribute A st (some tr) = .ok M ∧ M.r = tr.data.length ∧ M.c = 1 ∧
      ∀ i (hi : i < tr.data.length),
        M.f i 0 = (A.ckpts.map (fun c => A.phiLoss c tr.data[i] ⬝ᵥ
            ((gram A.reg tr.data.length (feat A c tr.data))⁻¹ *ᵥ A.phiLoss c tr.data[i]))).sum / (A.ckpts.length : R)
          * ((A.ckpts.map (fun c => 1 - A.prob c tr.data[i])).sum / (A.ckpts.length : R)) := by
  simp only [← kernel_eq_gram] at hdet ⊢
  obtain ⟨a, q, e, hs, hv⟩ := self_fold_spec A tr b1 s1 n1 A.ckpts hdet
  obtain ⟨M, l, rfl, rfl, hr, hcc, hl⟩ := hs hc
  refine ⟨⟨M.c, M.r, fun i j => M.f j i * (l[i]?).getD 0⟩, ?_, hcc, hr, fun i hi => ?_⟩
  · simp only [selfAttribute, hst, Option.isSome_none, Bool.false_eq_true, if_false, e]
    rfl
  · obtain ⟨h1, h2⟩ := hv i hi
    rw [← h1, ← h2]; rfl

/-- **C14.** With a loader after `cache`, `self_attribute` raises `ValueError`; so no call of `self_attribute` succeeds on a cached
attributor. -/
theorem C14_self_after_cache_raises (A : Attributor R X C d) (st0 st : State R X d) (full : Loader X)
    (h : cache A st0 full = .ok st) (tr : Option (Loader X)) : ∃ e, selfAttribute A st tr = .error e := by
  obtain ⟨s, h1, h2⟩ := bind_ok h
  cases h2
  cases tr with
  | none => exact ⟨_, rfl⟩
  | some tr => exact ⟨.valueError, rfl⟩

/-! ## Non-vacuity -/

/-- One feature per sample, two checkpoints. -/
noncomputable def demo : Attributor ℝ ℝ ℝ 1 := ⟨fun c x _ => c * x, fun c x _ => c * x, fun _ _ => 1 / 2, [1, 2], 1⟩

example : ∃ st M, cache demo fresh ⟨[1, 2], 1, true⟩ = .ok st ∧ attribute' demo st ⟨[3], 4, true⟩ none = .ok M ∧
    M.r = 2 ∧ M.c = 1 := by
  have hdet : ∀ c, (gram demo.reg 2 (feat demo c [1, 2])).det ≠ 0 := fun c => C13_gram_nonsingular 1 one_pos 2 _
  obtain ⟨st, e, hf⟩ := C12_cache_succeeds demo fresh ⟨[1, 2], 1, true⟩ (by norm_num) rfl (by simp)
    (fun c _ => by rw [kernel_eq_gram]; exact hdet c)
  obtain ⟨M, e', hr, hc, -⟩ := C13_trak_entry demo fresh rfl ⟨[1, 2], 1, true⟩ ⟨[3], 4, true⟩ (by norm_num) (by norm_num) rfl rfl
    (by simp) (by simp) (by simp [demo]) (fun c _ => hdet c)
  refine ⟨st, M, e, ?_, hr, hc⟩
  rw [C12_cached_eq_uncached demo fresh _ _ st e, e']

example : ∃ M, selfAttribute demo fresh (some ⟨[1, 2], 1, true⟩) = .ok M ∧ M.r = 2 ∧ M.c = 1 := by
  obtain ⟨M, e, hr, hc, -⟩ := C14_self_column demo fresh rfl ⟨[1, 2], 1, true⟩ (by norm_num) rfl
    (by simp) (by simp [demo]) (fun c _ => C13_gram_nonsingular 1 one_pos 2 _)
  exact ⟨M, e, hr, hc⟩

end Verif.TRAK
