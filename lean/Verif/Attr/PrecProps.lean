import Verif.Attr.PrecLemmas
import Verif.TracIn.RoundProps
import Verif.KNN.RoundProps
import Mathlib.Tactic.FinCases
import Mathlib.Data.Fin.VecNotation

/-! # C229: precision of the scores for half, single and double precision models -/

namespace Verif.Prec

open Verif DT TracInRound
open scoped BigOperators

/-! ## Specification -/

/-- For which precisions of the model an influence function attributor gives scores. -/
def Works : Method → DT → Prop
  | .explicit, m => m ≠ half
  | .cg _, _ => True
  | .lissa r d, m => r ≠ 0 ∧ (d = 0 ∨ m = single)
  | .arnoldi _ _, m => m = single
  | .dataInf l _, m => l ≠ 0 ∧ m = single

/-- Whether a failure shows without any test batch: Arnoldi transforms the training samples, and RelatIF's denominators of the
explicit, CG and LiSSA attributors transform them too. -/
def Early : Method → Relat → Prop
  | .arnoldi _ _, _ => True
  | .dataInf _ _, _ => False
  | _, r => r ≠ .none

/-! ## The transformations -/

theorem transformTest_works {M : Method} {m : DT} (h : Works M m) {full : ℕ} (hf : full ≠ 0) :
    transformTest M m full m = .ok (some m) ∧ transformTrain M m m = .ok m := by
  cases M with
  | explicit =>
    refine ⟨overFull_ok (x := m) ?_ hf, rfl⟩
    cases m with
    | half => exact absurd rfl h
    | single => rfl
    | double => rfl
  | cg n => exact ⟨overFull_ok (ihvpCG_ok n m) hf, rfl⟩
  | lissa r d => exact ⟨overFull_ok (ihvpLissa_ok h.1 h.2 m) hf, rfl⟩
  | arnoldi n s =>
    obtain rfl : m = single := h
    refine ⟨?_, arnoldiProject_single s n⟩
    show (arnoldiProject single s n single >>= fun r : DT => pure (some r)) = _
    rw [arnoldiProject_single]
    rfl
  | dataInf l c =>
    obtain ⟨hl, rfl⟩ := h
    refine ⟨?_, rfl⟩
    show (dataInfTransform l c single single >>= fun r : DT => pure (some r)) = _
    rw [dataInfTransform_ok hl]
    rfl

/-- The product of a train and a test representation fails, if the attributor is not for this precision. -/
def FailsLate (M : Method) (m : DT) (full : ℕ) : Prop :=
  ∀ (d : Option DT) (out : DT), scoreBlock m m (transformTest M m full) d out = .error .runtimeError

theorem transform_fails {M : Method} {m : DT} (h : ¬Works M m) {full : ℕ} (hf : full ≠ 0) :
    (transformTest M m full m = .error .runtimeError ∧ ownDenom M = true ∧ transformTrain M m m = .ok m) ∨
    (∃ n s, M = .arnoldi n s ∧ transformTrain M m m = .error .runtimeError) ∨
    (∃ l c, M = .dataInf l c ∧ FailsLate M m full) := by
  cases M with
  | explicit =>
    left
    refine ⟨overFull_err ?_ hf, rfl, rfl⟩
    have : m = half := by
      by_contra h'
      exact h h'
    subst this
    rfl
  | cg n => exact absurd trivial h
  | lissa r d => exact Or.inl ⟨overFull_err (ihvpLissa_err h m) hf, rfl, rfl⟩
  | arnoldi n s => exact Or.inr (Or.inl ⟨n, s, rfl, arnoldiProject_other h s n⟩)
  | dataInf l c =>
    refine Or.inr (Or.inr ⟨l, c, rfl, ?_⟩)
    intro d out
    unfold scoreBlock
    rcases Nat.eq_zero_or_pos l with rfl | hl
    · rfl
    · have hl' : l ≠ 0 := Nat.pos_iff_ne_zero.1 hl
      have hm : m ≠ single := fun e => h ⟨hl', e⟩
      have e : transformTest (.dataInf l c) m full m = .ok (some single) := by
        show (dataInfTransform l c m m >>= fun r : DT => pure (some r)) = _
        rw [dataInfTransform_ok hl']
        rfl
      rw [e]
      simp [asTensor, mm, hm, bind, Except.bind]

theorem scoreBlock_ok {m : DT} {tt : DT → Except Err (Option DT)} (h : tt m = .ok (some m)) (d : Option DT) (out : DT) :
    scoreBlock m m tt d out = .ok out := by
  unfold scoreBlock
  rw [h]
  cases d <;> simp [asTensor, mm_self, inPlace, bind, Except.bind, pure, Except.pure]

theorem denomOf_ok {m : DT} {tt : DT → Except Err (Option DT)} (h : tt m = .ok (some m)) (own : Bool) (r : Relat) :
    ∃ d, denomOf own tt m r = .ok d := by
  cases r <;> cases own <;> simp [denomOf, h, asTensor, bind, Except.bind, pure, Except.pure]

theorem denomOf_base (m : DT) (tt : DT → Except Err (Option DT)) (r : Relat) : ∃ d, denomOf false tt m r = .ok d := by
  cases r <;> simp [denomOf]

theorem denomOf_err {m : DT} {tt : DT → Except Err (Option DT)} {e : Err} (h : tt m = .error e) {r : Relat} (hr : r ≠ .none) :
    denomOf true tt m r = .error e := by
  cases r with
  | none => exact absurd rfl hr
  | l => simp [denomOf, h, bind, Except.bind]
  | theta => simp [denomOf, h, bind, Except.bind]

/-- What happens for one training batch. -/
def trainBatch (m : DT) (trainT : DT → Except Err DT) (tt : DT → Except Err (Option DT)) (own : Bool) (r : Relat) (te : ℕ)
    (out : DT) : Except Err DT := do
  let denom ← denomOf own tt m r
  let train ← trainT m
  times te (scoreBlock m train tt denom) out

theorem attributeAll_eq (m : DT) (trainT : DT → Except Err DT) (tt : DT → Except Err (Option DT)) (own : Bool) (r : Relat)
    (ckpts tr te : ℕ) :
    attributeAll m trainT tt own r ckpts tr te = times ckpts (times tr (trainBatch m trainT tt own r te)) single := rfl

theorem times_times_ok {body : DT → Except Err DT} (h : body single = .ok single) (a b : ℕ) :
    times a (times b body) single = .ok single := times_fix (times_fix h b) a

theorem times_times_err {body : DT → Except Err DT} {e : Err} (h : body single = .error e) {a b : ℕ} (ha : a ≠ 0) (hb : b ≠ 0) :
    times a (times b body) single = .error e := times_err (times_err h hb) ha

/-- **C229** (influence functions). The scores are in single precision whatever the precision of the model, or the call raises
`RuntimeError`: the explicit attributor for half precision, LiSSA (with at least one step), Arnoldi and DataInf for half and double
precision.  CG gives scores for every precision.  The exception needs a checkpoint, a training batch and a test batch, or no test
batch where the training samples are transformed. -/
theorem C229_influence (M : Method) (m : DT) (full : ℕ) (hf : full ≠ 0) (relat : Relat) (ckpts tr te : ℕ) :
    (Works M m → ifScores M m full relat ckpts tr te = .ok single) ∧
    (¬Works M m → ckpts ≠ 0 → tr ≠ 0 → (te ≠ 0 ∨ Early M relat) →
      ifScores M m full relat ckpts tr te = .error .runtimeError) ∧
    (¬(ckpts ≠ 0 ∧ tr ≠ 0 ∧ (te ≠ 0 ∨ Early M relat)) → ifScores M m full relat ckpts tr te = .ok single) := by
  classical
  suffices h : (Works M m → ifScores M m full relat ckpts tr te = .ok single) ∧
    (¬Works M m → ifScores M m full relat ckpts tr te =
      if ckpts ≠ 0 ∧ tr ≠ 0 ∧ (te ≠ 0 ∨ (Early M relat)) then .error .runtimeError else .ok single) from by
    refine ⟨h.1, fun hw a b c => (h.2 hw).trans (if_pos ⟨a, b, c⟩), fun hn => ?_⟩
    by_cases hw : Works M m
    · exact h.1 hw
    · exact (h.2 hw).trans (if_neg hn)
  unfold ifScores
  rw [attributeAll_eq]
  constructor
  · intro h
    obtain ⟨h1, h2⟩ := transformTest_works h hf
    apply times_times_ok
    unfold trainBatch
    obtain ⟨d, hd⟩ := denomOf_ok h1 (ownDenom M) relat
    rw [hd, h2]
    exact times_fix (scoreBlock_ok h1 d single) te
  · intro h
    have outer : ∀ e : Except Err DT, (e = .error .runtimeError ∨ e = .ok single) →
        trainBatch m (transformTrain M m) (transformTest M m full) (ownDenom M) relat te single = e →
        (e = .error .runtimeError ↔ (te ≠ 0 ∨ Early M relat)) →
        times ckpts (times tr (trainBatch m (transformTrain M m) (transformTest M m full) (ownDenom M) relat te)) single =
          if ckpts ≠ 0 ∧ tr ≠ 0 ∧ (te ≠ 0 ∨ (Early M relat)) then .error .runtimeError else .ok single := by
      intro e he hb hiff
      by_cases hc : ckpts = 0
      · subst hc
        rw [if_neg (by simp), times_zero]
      by_cases ht : tr = 0
      · subst ht
        rw [if_neg (by simp)]
        exact times_fix (times_zero _ _) _
      rcases he with rfl | rfl
      · rw [if_pos ⟨hc, ht, hiff.1 rfl⟩]
        exact times_times_err hb hc ht
      · rw [if_neg (fun h' => by simpa using hiff.2 h'.2.2)]
        exact times_times_ok hb ckpts tr
    rcases transform_fails h hf with ⟨h1, h2, h3⟩ | ⟨n, s, rfl, h1⟩ | ⟨l, c, rfl, h1⟩
    · have hE : Early M relat ↔ relat ≠ .none := by
        cases M with
        | arnoldi => simp [ownDenom] at h2
        | dataInf => simp [ownDenom] at h2
        | explicit => rfl
        | cg => rfl
        | lissa => rfl
      by_cases hr : relat = .none
      · subst hr
        by_cases ht : te = 0
        · subst ht
          refine outer (.ok single) (Or.inr rfl) ?_ ?_
          · unfold trainBatch
            rw [h3]
            rfl
          · simp [hE]
        · refine outer (.error .runtimeError) (Or.inl rfl) ?_ (by simp [ht])
          unfold trainBatch
          rw [h3]
          refine times_err ?_ ht
          show (transformTest M m full m >>= _) = _
          rw [h1]
          rfl
      · refine outer (.error .runtimeError) (Or.inl rfl) ?_ (by simp [hE, hr])
        unfold trainBatch
        rw [h2, denomOf_err h1 hr]
        rfl
    · refine outer (.error .runtimeError) (Or.inl rfl) ?_ (by simp [Early])
      unfold trainBatch
      obtain ⟨d, hd⟩ := denomOf_base m (transformTest (.arnoldi n s) m full) relat
      have : denomOf (ownDenom (.arnoldi n s)) (transformTest (.arnoldi n s) m full) m relat = .ok d := hd
      rw [this, h1]
      rfl
    · obtain ⟨d, hd⟩ := denomOf_base m (transformTest (.dataInf l c) m full) relat
      have hd' : denomOf (ownDenom (.dataInf l c)) (transformTest (.dataInf l c) m full) m relat = .ok d := hd
      by_cases ht : te = 0
      · subst ht
        refine outer (.ok single) (Or.inr rfl) ?_ (by simp [Early])
        unfold trainBatch
        rw [hd']
        rfl
      · refine outer (.error .runtimeError) (Or.inl rfl) ?_ (by simp [ht])
        unfold trainBatch
        rw [hd']
        exact times_err (h1 d single) ht

/-- **C229** (self-influence). The influence of the training samples on themselves follows the same table. -/
theorem C229_self (M : Method) (m : DT) (full : ℕ) (hf : full ≠ 0) (ckpts tr : ℕ) :
    (Works M m → ifSelf M m full ckpts tr = .ok single) ∧
    (¬Works M m → ckpts ≠ 0 → tr ≠ 0 → ifSelf M m full ckpts tr = .error .runtimeError) := by
  constructor
  · intro h
    obtain ⟨h1, h2⟩ := transformTest_works h hf
    unfold ifSelf selfAttribute
    by_cases ht : tr = 0
    · subst ht
      exact times_fix (times_zero _ _) _
    apply times_times_ok
    rw [h2]
    obtain ⟨n, rfl⟩ := Nat.exists_eq_succ_of_ne_zero ht
    have e : times (n + 1) (fun _ : Option DT => transformTest M m full m) none = .ok (some m) := by
      rw [times_succ, h1]
      exact times_fix (s := some m) (body := fun _ : Option DT => (.ok (some m) : Except Err (Option DT))) rfl n
    show (times (n + 1) (fun _ : Option DT => transformTest M m full m) none >>= _) = _
    rw [e]
    simp [asTensor, mm_self, inPlace, bind, Except.bind, pure, Except.pure]
  · intro h hc ht
    unfold ifSelf selfAttribute
    apply times_times_err ?_ hc ht
    rcases transform_fails h hf with ⟨h1, h2, h3⟩ | ⟨n, s, rfl, h1⟩ | ⟨l, c, rfl, h1⟩
    · rw [h3]
      show (times tr (fun _ : Option DT => transformTest M m full m) none >>= _) = _
      rw [times_err (e := .runtimeError) h1 ht]
      rfl
    · rw [h1]
      rfl
    · have h1' := h1 none single
      unfold scoreBlock at h1'
      show (times tr (fun _ : Option DT => transformTest (.dataInf l c) m full m) none >>= fun t : Option DT =>
        asTensor t >>= fun t : DT => mm m t >>= fun p : DT => pure (inPlace single p)) = _
      cases hx : transformTest (.dataInf l c) m full m with
      | error e =>
        rw [hx] at h1'
        rw [times_err (body := fun _ : Option DT => (.error e : Except Err (Option DT))) (e := e) rfl ht]
        exact h1'
      | ok v =>
        rw [hx] at h1'
        obtain ⟨n, rfl⟩ := Nat.exists_eq_succ_of_ne_zero ht
        rw [times_succ]
        have : times n (fun _ : Option DT => (.ok v : Except Err (Option DT))) v = .ok v :=
          times_fix (body := fun _ : Option DT => (.ok v : Except Err (Option DT))) rfl n
        show (times n (fun _ : Option DT => (.ok v : Except Err (Option DT))) v >>= _) = _
        rw [this]
        exact h1'

/-- **C229** (EK-FAC). With at least one cached batch `cache` raises for half precision and the scores for single and double
precision models are in single precision. -/
theorem C229_ekfac (m : DT) (full : ℕ) (hf : full ≠ 0) (relat : Relat) (tr te : ℕ) :
    ekfacScores m full relat tr te = if m = half then .error .runtimeError else .ok single := by
  obtain ⟨n, rfl⟩ := Nat.exists_eq_succ_of_ne_zero hf
  have good : ∀ m : DT, ew m single = m → eigh m = .ok m → ekfacScores m (n + 1) relat tr te = .ok single := by
    intro m ha he
    have hcov : times (n + 1) (covOne m) none = .ok (some (m, m)) := by
      rw [times_succ]
      have h0 : covOne m none = .ok (some (m, m)) := by
        simp [covOne, ha, mm_self, bind, Except.bind, pure, Except.pure]
      rw [h0]
      refine times_fix ?_ n
      simp [covOne, ha, mm_self, ew_self, bind, Except.bind, pure, Except.pure]
    have hlam : times (n + 1) (lambdaOne m (m, m)) none = .ok (some m) := by
      rw [times_succ]
      have h0 : lambdaOne m (m, m) none = .ok (some m) := by
        simp [lambdaOne, ha, mm_self, bind, Except.bind, pure, Except.pure]
      rw [h0]
      refine times_fix ?_ n
      simp [lambdaOne, ha, mm_self, ew_self, bind, Except.bind, pure, Except.pure]
    have hcache : ekfacCache m (n + 1) = .ok (some (m, m, m)) := by
      unfold ekfacCache
      rw [hcov]
      show (eigh m >>= fun qa : DT => eigh m >>= fun qs : DT => times (n + 1) (lambdaOne m (qa, qs)) none >>= _) = _
      rw [he]
      show (times (n + 1) (lambdaOne m (m, m)) none >>= _) = _
      rw [hlam]
      rfl
    unfold ekfacScores
    rw [hcache]
    show attributeAll m _ _ _ _ _ _ _ = _
    rw [attributeAll_eq]
    apply times_times_ok
    have ht : ((fun v : DT => do
        let r ← ekfacTransform (some (m, m, m)) v
        pure (some r)) m : Except Err (Option DT)) = .ok (some m) := by
      simp [ekfacTransform, mm_self, ew_self, bind, Except.bind, pure, Except.pure]
    unfold trainBatch
    obtain ⟨d, hd⟩ := denomOf_base m (fun v : DT => do
        let r ← ekfacTransform (some (m, m, m)) v
        pure (some r)) relat
    rw [hd]
    exact times_fix (scoreBlock_ok ht d single) te
  cases m with
  | single => exact good single rfl rfl
  | double => exact good double rfl rfl
  | half =>
    have hcov : times (n + 1) (covOne half) none = .ok (some (single, half)) := by
      rw [times_succ]
      exact times_fix (s := some (single, half)) (body := covOne half) rfl n
    rw [if_pos rfl]
    unfold ekfacScores ekfacCache
    rw [hcov]
    rfl

/-- **C229** (TracIn). Scores are in single precision for every precision of the model. -/
theorem C229_tracin (m : DT) (ckpts tr te : ℕ) : tracin m ckpts tr te = .ok single := by
  unfold tracin
  refine times_fix (times_fix (times_fix ?_ te) tr) ckpts
  simp [mm_self, inPlace, bind, Except.bind, pure, Except.pure]

/-- **C229** (TRAK). With at least one checkpoint, training and test batch: `RuntimeError` for half precision; else the scores have
the widest of the model's precision and that of the correct probabilities, so double precision is kept. -/
theorem C229_trak (m q : DT) {ckpts tr te : ℕ} (hc : ckpts ≠ 0) (ht : tr ≠ 0) (hs : te ≠ 0) :
    trak m q ckpts tr te = if m = half then .error .runtimeError else .ok (if m = double ∨ q = double then double else single) := by
  have hg : ∀ (x : DT) (n : ℕ), times n (fun l : List DT => (pure (l ++ [x]) : Except Err (List DT))) [] =
      .ok (List.replicate n x) := fun x n => times_push (c := .ok x) rfl n []
  have hp : trakPass m q tr = .ok (m, ew single q) := by
    unfold trakPass
    rw [hg, hg]
    show (cat (List.replicate tr m) >>= fun g : DT => cat (List.replicate tr (ew single q)) >>= fun w : DT => pure (g, w)) = _
    rw [cat_replicate ht, cat_replicate ht]
    rfl
  have step : ∀ s : Option DT × Option DT, trakCkpt m q tr te s =
      if m = half then .error .runtimeError else .ok (runMean s.1 m, runMean s.2 (ew single q)) := by
    intro s
    unfold trakCkpt
    rw [hp]
    show (times te (fun l : List DT => (pure (l ++ [m]) : Except Err (List DT))) [] >>= _) = _
    rw [hg]
    show (cat (List.replicate te m) >>= _) = _
    rw [cat_replicate hs]
    cases m <;> rfl
  obtain ⟨n, rfl⟩ := Nat.exists_eq_succ_of_ne_zero hc
  unfold trak
  by_cases hm : m = half
  · rw [times_err (e := .runtimeError) (by rw [step, if_pos hm]) hc, if_pos hm]
    rfl
  · rw [if_neg hm, times_succ, step, if_neg hm]
    have hfix : times n (trakCkpt m q tr te) (some m, some (ew single q)) = .ok (some m, some (ew single q)) := by
      refine times_fix ?_ n
      rw [step, if_neg hm]
      simp [runMean, ew_self]
    show (times n (trakCkpt m q tr te) (some m, some (ew single q)) >>= _) = _
    rw [hfix]
    cases m <;> cases q <;> first | exact absurd rfl hm | rfl

/-! ## Values -/

/-- **C229** (one checkpoint). The score of a double precision model with one checkpoint is the double precision score rounded
once. -/
theorem C229_once (s : ℕ → ℝ) : meanEntry float32 s 1 = float32 (s 0) := by
  have h0 : float32 0 = 0 := by simpa using C203_float32_integers 0 (by norm_num)
  simp [meanEntry, meanStep, h0, Verif.KNNRound.float32_idem]

/-- **C229** (several checkpoints). With rounding of relative error `u`, apart from an absolute error `η`, in each operation in
place, the entry differs from the mean of the checkpoints' scores by at most `(1 + u)^(3K) - 1` times the largest of them (plus
`η / u`). -/
theorem C229_mean (u η : ℝ) (hu : 0 < u) (hη : 0 ≤ η) (fl : ℝ → ℝ) (hfl : Rounds u η fl) (s : ℕ → ℝ) (B : ℝ)
    (K : ℕ) (hB : ∀ k < K, |s k| ≤ B) :
    |meanEntry fl s K - (∑ k ∈ Finset.range K, s k) / K| ≤ ((1 + u) ^ (3 * K) - 1) * (B + η / u) := by
  induction K with
  | zero => simp [meanEntry]
  | succ k ih =>
    have ih := ih (fun j hj => hB j (Nat.lt_succ_of_lt hj))
    have hB0 : 0 ≤ B := (abs_nonneg _).trans (hB k (Nat.lt_succ_self k))
    have hs := hB k (Nat.lt_succ_self k)
    set G := B + η / u with hG
    have huG : u * G = u * B + η := by rw [hG]; field_simp
    have hG0 : 0 ≤ G := by positivity
    set a := meanEntry fl s k with ha
    set S := ∑ j ∈ Finset.range k, s j with hS
    set C := (1 + u) ^ (3 * k) - 1 with hC
    have hC0 : 0 ≤ C := by
      have : (1 : ℝ) ≤ (1 + u) ^ (3 * k) := one_le_pow₀ (by linarith)
      linarith
    have hSk : |S| ≤ k * B := by
      refine (Finset.abs_sum_le_sum_abs _ _).trans ?_
      refine (Finset.sum_le_card_nsmul _ _ B ?_).trans ?_
      · intro j hj
        exact hB j (Nat.lt_succ_of_lt (Finset.mem_range.1 hj))
      · simp
    have hk0 : (0 : ℝ) ≤ k := Nat.cast_nonneg k
    have hk1 : (0 : ℝ) < (k : ℝ) + 1 := by linarith
    have hCG : 0 ≤ C * G := mul_nonneg hC0 hG0
    have hak : |a * k - S| ≤ k * (C * G) := by
      rcases Nat.eq_zero_or_pos k with h | h
      · have h1 : S = 0 := by rw [hS, h]; simp
        have h2 : (k : ℝ) = 0 := by rw [h]; simp
        rw [h1, h2]
        simp
      · have hkp : (0 : ℝ) < k := by exact_mod_cast h
        have : a * k - S = k * (a - S / k) := by field_simp
        rw [this, abs_mul, abs_of_pos hkp]
        exact mul_le_mul_of_nonneg_left ih hkp.le
    have habs : |a * k| ≤ k * (B + C * G) := by
      have := abs_add_le (a * k - S) S
      rw [sub_add_cancel] at this
      linarith
    set x1 := fl (a * k) with hx1
    have h1 : |x1 - a * k| ≤ u * (k * (B + C * G)) + η :=
      (hfl _).trans (by linarith [mul_le_mul_of_nonneg_left habs hu.le])
    set D1 := (1 + u) * (1 + C) - 1 with hD1
    have hD10 : 0 ≤ D1 := by rw [hD1]; nlinarith
    have hD1G : D1 * G = u * B + η + C * G + u * (C * G) := by
      rw [← huG, hD1]; ring
    have huCG : 0 ≤ u * (C * G) := mul_nonneg hu.le hCG
    have huB : 0 ≤ u * B := mul_nonneg hu.le hB0
    have h2 : |x1 + s k - (S + s k)| ≤ (k + 1) * (D1 * G) := by
      have e : x1 + s k - (S + s k) = (x1 - a * k) + (a * k - S) := by ring
      rw [e]
      refine (abs_add_le _ _).trans ((add_le_add h1 hak).trans ?_)
      rw [hD1G]
      nlinarith
    have hDG : 0 ≤ D1 * G := mul_nonneg hD10 hG0
    have h3 : |x1 + s k| ≤ (k + 1) * (B + D1 * G) := by
      have e : x1 + s k = (x1 + s k - (S + s k)) + S + s k := by ring
      have t1 := abs_add_le (x1 + s k - (S + s k) + S) (s k)
      have t2 := abs_add_le (x1 + s k - (S + s k)) S
      rw [← e] at t1
      linarith
    set x2 := fl (x1 + s k) with hx2
    set D2 := (1 + u) * (1 + D1) - 1 with hD2
    have hD2G : D2 * G = u * B + η + D1 * G + u * (D1 * G) := by
      rw [← huG, hD2]; ring
    have h4 : |x2 - (S + s k)| ≤ (k + 1) * (D2 * G) := by
      have e : x2 - (S + s k) = (x2 - (x1 + s k)) + (x1 + s k - (S + s k)) := by ring
      have t1 : |x2 - (x1 + s k)| ≤ u * ((k + 1) * (B + D1 * G)) + η :=
        (hfl _).trans (by linarith [mul_le_mul_of_nonneg_left h3 hu.le])
      rw [e]
      refine (abs_add_le _ _).trans ((add_le_add t1 h2).trans ?_)
      rw [hD2G]
      nlinarith
    have h5 : |x2 / (k + 1) - (S + s k) / (k + 1)| ≤ D2 * G := by
      rw [← sub_div, abs_div, abs_of_pos hk1, div_le_iff₀ hk1]
      linarith
    have h6 : |(S + s k) / (k + 1)| ≤ B := by
      rw [abs_div, abs_of_pos hk1, div_le_iff₀ hk1]
      have := abs_add_le S (s k)
      linarith
    have h7 : |x2 / (k + 1)| ≤ B + D2 * G := by
      have := abs_add_le (x2 / (k + 1) - (S + s k) / (k + 1)) ((S + s k) / (k + 1))
      rw [sub_add_cancel] at this
      linarith
    have h8 : |fl (x2 / (k + 1)) - x2 / (k + 1)| ≤ u * (B + D2 * G) + η :=
      (hfl _).trans (by linarith [mul_le_mul_of_nonneg_left h7 hu.le])
    have e : meanEntry fl s (k + 1) = fl (x2 / (k + 1)) := by
      simp only [meanEntry, meanStep, Nat.cast_add, Nat.cast_one]
      rfl
    rw [e, Finset.sum_range_succ, Nat.cast_add, Nat.cast_one]
    have e2 : fl (x2 / (k + 1)) - (S + s k) / (k + 1) =
        (fl (x2 / (k + 1)) - x2 / (k + 1)) + (x2 / (k + 1) - (S + s k) / (k + 1)) := by ring
    rw [e2]
    refine (abs_add_le _ _).trans ((add_le_add h8 h5).trans (le_of_eq ?_))
    have e3 : ((1 + u) ^ (3 * (k + 1)) - 1) * G = u * G + D2 * G + u * (D2 * G) := by
      rw [hD2, hD1, hC]
      ring
    rw [e3, huG]
    ring

/-- **C229** (order of neighbours). KNN-Shapley sorts distances rounded to single precision: of two samples in the order used the
first is not farther than the second up to the rounding of the two distances. -/
theorem C229_order {n : ℕ} (d : Fin n → ℝ) (σ : Equiv.Perm (Fin n)) (hσ : Monotone (fun i : Fin n => distEntry (d (σ i))))
    (i j : Fin n) (hij : i ≤ j) :
    d (σ i) ≤ d (σ j) + 2 ^ (-24 : ℤ) * (|d (σ i)| + |d (σ j)|) + 2 ^ (-149 : ℤ) := by
  have h := hσ hij
  have h1 := abs_le.1 (C203_float32 (d (σ i)))
  have h2 := abs_le.1 (C203_float32 (d (σ j)))
  have e : (2 : ℝ) ^ (-149 : ℤ) = 2 ^ (-150 : ℤ) + 2 ^ (-150 : ℤ) := by
    rw [show (-149 : ℤ) = -150 + 1 by norm_num, zpow_add_one₀ (by norm_num)]
    ring
  simp only [distEntry] at h
  rw [e, mul_add]
  linarith [h1.1, h2.2]

/-- **C229** (ties by rounding). Distances that differ in double precision can be sorted either way: 2²⁴ and 2²⁴ + 1. -/
theorem C229_tie : ∃ d : Fin 2 → ℝ, d 0 < d 1 ∧ ∀ σ : Equiv.Perm (Fin 2), Monotone (fun i : Fin 2 => distEntry (d (σ i))) := by
  have big : float32 (2 ^ 24) = 2 ^ 24 := by
    refine float32_fix _ (2 ^ 23) ?_
    rw [lastPlace_eq le_rfl (by norm_num)]
    norm_num
  have tie : float32 (2 ^ 24 + 1) = 2 ^ 24 := by
    unfold float32
    rw [lastPlace_eq (by norm_num) (by norm_num)]
    have hfl : ⌊((2 ^ 24 + 1 : ℝ) / 2 ^ (1 : ℤ))⌋ = 8388608 := by
      rw [Int.floor_eq_iff]; norm_num
    have hfr : Int.fract ((2 ^ 24 + 1 : ℝ) / 2 ^ (1 : ℤ)) = 1 / 2 := by
      rw [← Int.self_sub_floor, hfl]; norm_num
    have : roundEven ((2 ^ 24 + 1 : ℝ) / 2 ^ (1 : ℤ)) = 8388608 := by
      unfold roundEven
      rw [hfr, hfl]
      norm_num
    rw [this]
    norm_num
  refine ⟨![2 ^ 24, 2 ^ 24 + 1], by simp, ?_⟩
  have h : ∀ i : Fin 2, distEntry ((![2 ^ 24, 2 ^ 24 + 1] : Fin 2 → ℝ) i) = 2 ^ 24 := by
    intro i
    fin_cases i
    · exact big
    · exact tie
  intro σ i j _
  show distEntry _ ≤ distEntry _
  rw [h, h]

/-- **C229** (bound for the tables). With `K` checkpoints and scores up to `B` the entry of the table is within
`((1 + 2⁻²⁴)^(3K) - 1) (B + 2⁻¹²⁶)` of the mean of the scores, however precisely those were computed. -/
theorem C229_float32 (s : ℕ → ℝ) (B : ℝ) (K : ℕ) (hB : ∀ k < K, |s k| ≤ B) :
    |meanEntry float32 s K - (∑ k ∈ Finset.range K, s k) / K| ≤ ((1 + 2 ^ (-24 : ℤ)) ^ (3 * K) - 1) * (B + 2 ^ (-126 : ℤ)) := by
  have h := C229_mean (2 ^ (-24 : ℤ)) (2 ^ (-150 : ℤ)) (by positivity) (by positivity) float32 C203_float32 s B K hB
  have e : (2 : ℝ) ^ (-150 : ℤ) / 2 ^ (-24 : ℤ) = 2 ^ (-126 : ℤ) := by
    rw [← zpow_sub₀ (by norm_num)]
    norm_num
  rwa [e] at h

/-! ## Examples -/

/-- A double precision model: two checkpoints, three training and two test batches. -/
example : ifScores .explicit double 3 .l 2 3 2 = .ok single := rfl
example : ifScores (.cg 4) double 3 .theta 2 3 2 = .ok single := rfl
example : ifScores (.lissa 2 5) double 3 .none 2 3 2 = .error .runtimeError := rfl
example : ifScores (.lissa 2 5) double 3 .none 2 3 0 = .ok single := rfl
example : ifScores (.lissa 2 5) double 3 .l 2 3 0 = .error .runtimeError := rfl
example : ifScores (.arnoldi 4 (fun _ => false)) double 3 .none 2 3 0 = .error .runtimeError := rfl
example : ifScores (.arnoldi 4 (fun n => n == 2)) single 3 .none 2 3 2 = .ok single := rfl
example : ifScores (.dataInf 2 3) double 3 .none 2 3 2 = .error .runtimeError := rfl
example : ifScores (.dataInf 2 3) single 3 .l 2 3 2 = .ok single := rfl
example : ifSelf (.cg 2) half 2 1 2 = .ok single := rfl
example : ifSelf .explicit half 2 1 2 = .error .runtimeError := rfl
example : ekfacScores double 2 .none 2 2 = .ok single := rfl
example : trak double single 2 3 2 = .ok double := rfl
example : trak single double 2 3 2 = .ok double := rfl
example : tracin double 2 3 2 = .ok single := rfl

end Verif.Prec
