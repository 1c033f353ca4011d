import Mathlib.Data.Real.Basic
import Mathlib.Tactic.Ring
import Mathlib.Tactic.Linarith
import Mathlib.Tactic.FieldSimp
import Mathlib.Tactic.LinearCombination
import Mathlib.Logic.Equiv.Fin.Basic
import Mathlib.Algebra.BigOperators.Ring.Finset
import Mathlib.Algebra.BigOperators.Field
import Mathlib.Algebra.Order.BigOperators.Group.Finset
import Verif.Hessian.LissaMeanProps
import Verif.Attr.LissaAttrModel

/-!
# C222: LiSSA scores across training batches

Every pair of a training batch and a test batch has draws of its own.
-/

namespace Verif.LissaAttr

open Matrix
open Verif.Hessian (expect expect_const expect_add expect_smul expect_equiv expect_prod expect_sum permList drawsAll draws lissaRec)

variable {Ω : Type} {p : ℕ}

/-! ## The scores -/

/-- Which call of `transform_test_rep` belongs to checkpoint `k`, training batch `tb` and test batch `sb` (`r` is 1 with a normalisation and 0
without). -/
def callIdx (T S r k tb sb : ℕ) : ℕ := (k * T + tb) * (r + S) + r + sb

/-- Calls for the denominators of a training batch. -/
def denIdx (T S r k tb : ℕ) : ℕ := (k * T + tb) * (r + S)

/-- 1 with a normalisation, 0 without. -/
def extra (a : Args Ω p) : ℕ := if a.relatif.isSome then 1 else 0

/-- The denominator of training sample `i` when its call used the draws `ω`. -/
noncomputable def denOf (a : Args Ω p) (ω : Ω) (k i : ℕ) : ℝ :=
  match a.relatif with
  | none => 1
  | some nrm => nrm k i (a.est k ω (i % a.bs) (a.g k i))

theorem numBatches_gt (bs n i : ℕ) (hbs : 0 < bs) (hi : i < n) : i / bs < numBatches bs n := by
  rw [numBatches, Nat.div_lt_iff_lt_mul hbs]
  have h := Nat.div_add_mod (n + bs - 1) bs
  have h2 := Nat.mod_lt (n + bs - 1) hbs
  rw [Nat.mul_comm] at h
  omega

theorem in_block (bs n i tb : ℕ) (hbs : 0 < bs) (hi : i < n) : (tb * bs ≤ i ∧ i < min ((tb + 1) * bs) n) ↔ i / bs = tb := by
  constructor
  · rintro ⟨h1, h2⟩
    apply le_antisymm
    · exact Nat.le_of_lt_succ ((Nat.div_lt_iff_lt_mul hbs).2 (lt_of_lt_of_le h2 (min_le_left _ _)))
    · exact (Nat.le_div_iff_mul_le hbs).2 h1
  · rintro rfl
    refine ⟨Nat.div_mul_le_self i bs, lt_min ?_ hi⟩
    rw [← Nat.div_lt_iff_lt_mul hbs]
    omega

/-- One block of scores: sample `i`, test sample `j`, draws `ω`. -/
noncomputable def term (a : Args Ω p) (ω : Ω) (k i j : ℕ) : ℝ := a.g k i ⬝ᵥ a.est k ω (j % a.bs') (a.t k j)

theorem test_loop (a : Args Ω p) (hb : 0 < a.bs) (hb' : 0 < a.bs') (draw : ℕ → Ω) (k tb : ℕ) (den : ℕ → ℝ) (s : St) (S : ℕ) :
    ((List.range S).foldl (testStep a draw k tb den) s).calls = s.calls + S ∧
    ∀ i < a.n, ∀ j < a.m, ((List.range S).foldl (testStep a draw k tb den) s).out i j =
      s.out i j + if i / a.bs = tb ∧ j / a.bs' < S then term a (draw (s.calls + j / a.bs')) k i j / den i else 0 := by
  induction S with
  | zero => simp
  | succ S ih =>
    rw [List.range_succ, List.foldl_append]
    simp only [List.foldl_cons, List.foldl_nil]
    refine ⟨by simp only [testStep, ih.1]; omega, fun i hi j hj => ?_⟩
    simp only [testStep, ih.1, ih.2 i hi j hj, in_block a.bs a.n i tb hb hi, in_block a.bs' a.m j S hb' hj]
    by_cases h1 : i / a.bs = tb
    · by_cases h2 : j / a.bs' = S
      · have e : j - S * a.bs' = j % a.bs' := by
          rw [← h2, Nat.mod_eq_sub_div_mul]
        simp [h1, h2, e, term]
      · by_cases h3 : j / a.bs' < S
        · have h4 : j / a.bs' < S + 1 := by omega
          simp [h1, h2, h3, h4]
        · have h4 : ¬ j / a.bs' < S + 1 := by omega
          simp [h2, h3, h4]
    · simp [h1]

theorem train_step (a : Args Ω p) (hb : 0 < a.bs) (hb' : 0 < a.bs') (draw : ℕ → Ω) (k : ℕ) (s : St) (tb : ℕ) :
    (trainStep a draw k s tb).calls = s.calls + (extra a + numBatches a.bs' a.m) ∧
    ∀ i < a.n, ∀ j < a.m, (trainStep a draw k s tb).out i j = s.out i j +
      if i / a.bs = tb then term a (draw (s.calls + extra a + j / a.bs')) k i j / denOf a (draw s.calls) k i else 0 := by
  have hS : ∀ j < a.m, j / a.bs' < numBatches a.bs' a.m := fun j hj => numBatches_gt _ _ _ hb' hj
  cases hr : a.relatif with
  | none =>
    simp only [trainStep, hr, extra, Option.isSome_none, if_false, Bool.false_eq_true, zero_add, add_zero, denOf]
    obtain ⟨h1, h2⟩ := test_loop a hb hb' draw k tb (fun _ => 1) s (numBatches a.bs' a.m)
    refine ⟨h1, fun i hi j hj => ?_⟩
    rw [h2 i hi j hj]
    simp [hS j hj]
  | some nrm =>
    simp only [trainStep, hr, extra, Option.isSome_some, if_true, denOf]
    obtain ⟨h1, h2⟩ := test_loop a hb hb' draw k tb (fun i => nrm k i (a.est k (draw s.calls) (i - tb * a.bs) (a.g k i)))
      { s with calls := s.calls + 1 } (numBatches a.bs' a.m)
    refine ⟨by rw [h1]; simp only; omega, fun i hi j hj => ?_⟩
    rw [h2 i hi j hj]
    by_cases h : i / a.bs = tb
    · have e : i - tb * a.bs = i % a.bs := by rw [← h, Nat.mod_eq_sub_div_mul]
      simp [hS j hj, h, e]
    · simp [h]

theorem train_loop (a : Args Ω p) (hb : 0 < a.bs) (hb' : 0 < a.bs') (draw : ℕ → Ω) (k : ℕ) (s : St) (T : ℕ) :
    ((List.range T).foldl (trainStep a draw k) s).calls = s.calls + T * (extra a + numBatches a.bs' a.m) ∧
    ∀ i < a.n, ∀ j < a.m, ((List.range T).foldl (trainStep a draw k) s).out i j = s.out i j +
      if i / a.bs < T then term a (draw (s.calls + i / a.bs * (extra a + numBatches a.bs' a.m) + extra a + j / a.bs')) k i j /
        denOf a (draw (s.calls + i / a.bs * (extra a + numBatches a.bs' a.m))) k i else 0 := by
  induction T with
  | zero => simp
  | succ T ih =>
    rw [List.range_succ, List.foldl_append]
    simp only [List.foldl_cons, List.foldl_nil]
    obtain ⟨h1, h2⟩ := train_step a hb hb' draw k ((List.range T).foldl (trainStep a draw k) s) T
    refine ⟨by rw [h1, ih.1]; ring, fun i hi j hj => ?_⟩
    rw [h2 i hi j hj, ih.2 i hi j hj, ih.1]
    by_cases h3 : i / a.bs = T
    · simp [h3]
    · by_cases h4 : i / a.bs < T
      · have h5 : i / a.bs < T + 1 := by omega
        simp [h3, h4, h5]
      · have h5 : ¬ i / a.bs < T + 1 := by omega
        simp [h3, h4, h5]

theorem ckpt_loop (a : Args Ω p) (hb : 0 < a.bs) (hb' : 0 < a.bs') (draw : ℕ → Ω) (K : ℕ) :
    ((List.range K).foldl (ckptStep a draw) ⟨0, fun _ _ => 0⟩).calls = K * numBatches a.bs a.n * (extra a + numBatches a.bs' a.m) ∧
    ∀ i < a.n, ∀ j < a.m, (K : ℝ) * ((List.range K).foldl (ckptStep a draw) ⟨0, fun _ _ => 0⟩).out i j =
      ∑ k ∈ Finset.range K, term a (draw (callIdx (numBatches a.bs a.n) (numBatches a.bs' a.m) (extra a) k (i / a.bs) (j / a.bs'))) k i j /
        denOf a (draw (denIdx (numBatches a.bs a.n) (numBatches a.bs' a.m) (extra a) k (i / a.bs))) k i := by
  induction K with
  | zero => simp
  | succ K ih =>
    rw [List.range_succ, List.foldl_append]
    simp only [List.foldl_cons, List.foldl_nil]
    set s := (List.range K).foldl (ckptStep a draw) ⟨0, fun _ _ => 0⟩ with hs
    obtain ⟨h1, h2⟩ := train_loop a hb hb' draw K { s with out := fun i j => s.out i j * K } (numBatches a.bs a.n)
    refine ⟨?_, fun i hi j hj => ?_⟩
    · simp only [ckptStep]
      rw [h1]
      simp only [ih.1]
      ring
    · simp only [ckptStep]
      rw [h2 i hi j hj, if_pos (numBatches_gt _ _ _ hb hi), Finset.sum_range_succ, ← ih.2 i hi j hj]
      have hK : ((K : ℝ) + 1) ≠ 0 := by positivity
      push_cast
      have e1 : callIdx (numBatches a.bs a.n) (numBatches a.bs' a.m) (extra a) K (i / a.bs) (j / a.bs') =
          s.calls + i / a.bs * (extra a + numBatches a.bs' a.m) + extra a + j / a.bs' := by
        rw [ih.1, callIdx]; ring
      have e2 : denIdx (numBatches a.bs a.n) (numBatches a.bs' a.m) (extra a) K (i / a.bs) =
          s.calls + i / a.bs * (extra a + numBatches a.bs' a.m) := by
        rw [ih.1, denIdx]; ring
      rw [e1, e2]
      field_simp

/-- **Scores**: the mean over the checkpoints of the inner product of the training gradient with an estimate for the test gradient that is made for
the pair of training batch and test batch; with a normalisation, divided by a norm formed with an estimate of its own for the training batch. -/
theorem C222_scores (a : Args Ω p) (hb : 0 < a.bs) (hb' : 0 < a.bs') (hK : a.K ≠ 0) (draw : ℕ → Ω) (i j : ℕ) (hi : i < a.n) (hj : j < a.m) :
    (attributeLissa a draw).out i j = (a.K : ℝ)⁻¹ * ∑ k ∈ Finset.range a.K,
      (a.g k i ⬝ᵥ a.est k (draw (callIdx (numBatches a.bs a.n) (numBatches a.bs' a.m) (extra a) k (i / a.bs) (j / a.bs'))) (j % a.bs') (a.t k j)) /
        denOf a (draw (denIdx (numBatches a.bs a.n) (numBatches a.bs' a.m) (extra a) k (i / a.bs))) k i := by
  have h := (ckpt_loop a hb hb' draw a.K).2 i hi j hj
  have hK' : (a.K : ℝ) ≠ 0 := by exact_mod_cast hK
  rw [attributeLissa]
  simp only [term] at h
  rw [← h]
  field_simp

/-- **Work**: the test gradients are transformed anew for every training batch and checkpoint. -/
theorem C222_calls (a : Args Ω p) (hb : 0 < a.bs) (hb' : 0 < a.bs') (draw : ℕ → Ω) :
    (attributeLissa a draw).calls = a.K * numBatches a.bs a.n * (extra a + numBatches a.bs' a.m) :=
  (ckpt_loop a hb hb' draw a.K).1

/-- Different checkpoints, training batches or test batches never share draws. -/
theorem C222_calls_distinct (T S r k tb sb k' tb' sb' : ℕ) (htb : tb < T) (htb' : tb' < T) (hsb : sb < S) (hsb' : sb' < S)
    (h : callIdx T S r k tb sb = callIdx T S r k' tb' sb') : k = k' ∧ tb = tb' ∧ sb = sb' := by
  simp only [callIdx] at h
  have hpos : 0 < r + S := by omega
  have key : ∀ x y u v c : ℕ, u < c → v < c → x * c + u = y * c + v → x = y ∧ u = v := by
    intro x y u v c hu hv hxy
    have h1 : (x * c + u) / c = x := by
      rw [Nat.mul_comm, Nat.mul_add_div (by omega), Nat.div_eq_of_lt hu, Nat.add_zero]
    have h2 : (y * c + v) / c = y := by
      rw [Nat.mul_comm, Nat.mul_add_div (by omega), Nat.div_eq_of_lt hv, Nat.add_zero]
    have hx : x = y := by rw [← h1, ← h2, hxy]
    subst hx
    exact ⟨rfl, by omega⟩
  obtain ⟨h1, h2⟩ := key (k * T + tb) (k' * T + tb') (r + sb) (r + sb') (r + S) (by omega) (by omega) (by omega)
  obtain ⟨h3, h4⟩ := key k k' tb tb' T htb htb' h1
  exact ⟨h3, h4, by omega⟩

/-! ## Samples of one training batch -/

/-- **Within a training batch** the scores for a test sample are one linear functional of the training gradients, whatever is drawn: equal
gradients give equal scores. -/
theorem C222_same_batch (a : Args Ω p) (hb : 0 < a.bs) (hb' : 0 < a.bs') (hK : a.K ≠ 0) (hr : a.relatif = none) (draw : ℕ → Ω)
    (i i' j : ℕ) (hi : i < a.n) (hi' : i' < a.n) (hj : j < a.m) (hbatch : i / a.bs = i' / a.bs) (hg : ∀ k < a.K, a.g k i = a.g k i') :
    (attributeLissa a draw).out i j = (attributeLissa a draw).out i' j := by
  rw [C222_scores a hb hb' hK draw i j hi hj, C222_scores a hb hb' hK draw i' j hi' hj, hbatch]
  congr 1
  apply Finset.sum_congr rfl
  intro k hk
  rw [hg k (Finset.mem_range.1 hk)]
  simp only [denOf, hr]

/-! ## Expectation and variance over the draws -/

section
variable [Fintype Ω] [Nonempty Ω]

/-- The variance over the draws of one call. -/
noncomputable def variance (f : Ω → ℝ) : ℝ := expect fun ω => (f ω - expect f) ^ 2

theorem variance_eq (f : Ω → ℝ) : variance f = expect (fun ω => f ω ^ 2) - expect f ^ 2 := by
  have e : (fun ω => (f ω - expect f) ^ 2) = fun ω => f ω ^ 2 + ((-2 * expect f) • f ω + expect f ^ 2) := by
    funext ω; simp only [smul_eq_mul]; ring
  rw [variance, e, expect_add (fun ω => f ω ^ 2), expect_add (fun ω => (-2 * expect f) • f ω), expect_smul, expect_const, smul_eq_mul]
  ring

theorem expect_coord' {ι V : Type} [Fintype ι] [DecidableEq ι] [AddCommGroup V] [Module ℝ V] (c : ι) (f : Ω → V) :
    expect (fun ω : ι → Ω => f (ω c)) = expect f := by
  rw [expect_equiv (Equiv.funSplitAt c Ω).symm, expect_prod]
  simp only [Equiv.funSplitAt_symm_apply, dite_true, expect_const]

theorem expect_mul_coord {ι : Type} [Fintype ι] [DecidableEq ι] (c c' : ι) (h : c ≠ c') (f f' : Ω → ℝ) :
    expect (fun ω : ι → Ω => f (ω c) * f' (ω c')) = expect f * expect f' := by
  rw [expect_equiv (Equiv.funSplitAt c Ω).symm, expect_prod]
  have e : ∀ x : Ω, expect (fun b : {j // j ≠ c} → Ω => f ((Equiv.funSplitAt c Ω).symm (x, b) c) * f' ((Equiv.funSplitAt c Ω).symm (x, b) c')) =
      expect f' * f x := by
    intro x
    have : (fun b : {j // j ≠ c} → Ω => f ((Equiv.funSplitAt c Ω).symm (x, b) c) * f' ((Equiv.funSplitAt c Ω).symm (x, b) c')) =
        fun b => f x • f' (b ⟨c', h.symm⟩) := by
      funext b
      simp [Equiv.funSplitAt_symm_apply, h.symm]
    rw [this, expect_smul, expect_coord' (⟨c', h.symm⟩ : {j // j ≠ c}) f', smul_eq_mul, mul_comm]
  simp only [e]
  rw [show (fun x => expect f' * f x) = fun x => expect f' • f x from rfl, expect_smul, smul_eq_mul, mul_comm]

/-- Second moment of a sum over independent draws. -/
theorem second_moment {ι J : Type} [Fintype ι] [DecidableEq ι] [Fintype J] [DecidableEq J] (e : J → ι) (he : Function.Injective e)
    (h : J → Ω → ℝ) : expect (fun ω : ι → Ω => (∑ x, h x (ω (e x))) ^ 2) = (∑ x, expect (h x)) ^ 2 + ∑ x, variance (h x) := by
  have e1 : (fun ω : ι → Ω => (∑ x, h x (ω (e x))) ^ 2) = fun ω => ∑ x, ∑ y, h x (ω (e x)) * h y (ω (e y)) := by
    funext ω
    rw [sq, Finset.sum_mul_sum]
  rw [e1, expect_sum]
  simp only [expect_sum]
  have e2 : ∀ x y, expect (fun ω : ι → Ω => h x (ω (e x)) * h y (ω (e y))) =
      expect (h x) * expect (h y) + if x = y then variance (h x) else 0 := by
    intro x y
    by_cases hxy : x = y
    · subst hxy
      rw [if_pos rfl, expect_coord' (e x) (fun ω => h x ω * h x ω), variance_eq]
      simp only [← sq]
      ring
    · rw [if_neg hxy, expect_mul_coord (e x) (e y) (fun h => hxy (he h)), add_zero]
  simp only [e2, Finset.sum_add_distrib, Finset.sum_ite_eq, Finset.mem_univ, if_true]
  rw [sq, Finset.sum_mul_sum]

theorem expect_sum_coord {ι J : Type} [Fintype ι] [DecidableEq ι] [Fintype J] (e : J → ι) (h : J → Ω → ℝ) :
    expect (fun ω : ι → Ω => ∑ x, h x (ω (e x))) = ∑ x, expect (h x) := by
  rw [expect_sum]
  exact Finset.sum_congr rfl fun x _ => expect_coord' (e x) (h x)

/-- The draws of one `attribute` call with `C` calls of the transformation, as a sequence. -/
def drawSeq {C : ℕ} [Inhabited Ω] (ω : Fin C → Ω) (c : ℕ) : Ω := if h : c < C then ω ⟨c, h⟩ else default

/-- The estimate that enters a score, as a function of the draws of its call. -/
noncomputable def share (a : Args Ω p) (k i j : ℕ) (ω : Ω) : ℝ := (a.K : ℝ)⁻¹ * (a.g k i ⬝ᵥ a.est k ω (j % a.bs') (a.t k j))

omit [Fintype Ω] [Nonempty Ω] in
theorem callIdx_lt (K T S k tb sb : ℕ) (hk : k < K) (htb : tb < T) (hsb : sb < S) : callIdx T S 0 k tb sb < K * T * (0 + S) := by
  simp only [callIdx, Nat.zero_add, Nat.add_zero]
  have h1 : k * T + tb + 1 ≤ K * T := by
    have : (k + 1) * T ≤ K * T := Nat.mul_le_mul_right T hk
    rw [Nat.add_mul, Nat.one_mul] at this
    omega
  have h2 : (k * T + tb + 1) * S ≤ K * T * S := Nat.mul_le_mul_right S h1
  rw [Nat.add_mul, Nat.one_mul] at h2
  omega

omit [Fintype Ω] [Nonempty Ω] in
theorem score_shares [Inhabited Ω] (a : Args Ω p) (hb : 0 < a.bs) (hb' : 0 < a.bs') (hK : a.K ≠ 0) (hr : a.relatif = none)
    (i j : ℕ) (hi : i < a.n) (hj : j < a.m) (ω : Fin (a.K * numBatches a.bs a.n * (0 + numBatches a.bs' a.m)) → Ω) :
    (attributeLissa a (drawSeq ω)).out i j = ∑ k : Fin a.K, share a k i j (ω ⟨callIdx (numBatches a.bs a.n) (numBatches a.bs' a.m) 0 k (i / a.bs) (j / a.bs'),
      callIdx_lt _ _ _ _ _ _ k.2 (numBatches_gt _ _ _ hb hi) (numBatches_gt _ _ _ hb' hj)⟩) := by
  rw [C222_scores a hb hb' hK _ i j hi hj, Finset.mul_sum, Finset.sum_range]
  apply Finset.sum_congr rfl
  intro k _
  have he : extra a = 0 := by simp [extra, hr]
  have hd : ∀ ω k i, denOf a ω k i = 1 := fun ω k i => by simp only [denOf, hr]
  rw [he, hd, div_one, drawSeq, dif_pos (callIdx_lt _ _ _ _ _ _ k.2 (numBatches_gt _ _ _ hb hi) (numBatches_gt _ _ _ hb' hj))]
  rfl

omit [Nonempty Ω] in
theorem expect_dot (v : Fin p → ℝ) (f : Ω → Fin p → ℝ) : expect (fun ω => v ⬝ᵥ f ω) = v ⬝ᵥ expect f := by
  simp only [expect, dotProduct, smul_eq_mul, Pi.smul_apply, Finset.sum_apply]
  rw [Finset.sum_comm, Finset.mul_sum]
  apply Finset.sum_congr rfl
  intro x _
  rw [← Finset.mul_sum]
  ring

/-- **On average** the draws do not matter: the mean score is that of the mean estimate. -/
theorem C222_mean [Inhabited Ω] (a : Args Ω p) (hb : 0 < a.bs) (hb' : 0 < a.bs') (hK : a.K ≠ 0) (hr : a.relatif = none)
    (i j : ℕ) (hi : i < a.n) (hj : j < a.m) :
    expect (fun ω : Fin (a.K * numBatches a.bs a.n * (0 + numBatches a.bs' a.m)) → Ω => (attributeLissa a (drawSeq ω)).out i j) =
      (a.K : ℝ)⁻¹ * ∑ k ∈ Finset.range a.K, a.g k i ⬝ᵥ expect fun ω => a.est k ω (j % a.bs') (a.t k j) := by
  simp only [score_shares a hb hb' hK hr i j hi hj]
  rw [expect_sum_coord, Finset.mul_sum, Finset.sum_range]
  apply Finset.sum_congr rfl
  intro k _
  have e : share a k i j = fun ω => (a.K : ℝ)⁻¹ • (a.g k i ⬝ᵥ a.est k ω (j % a.bs') (a.t k j)) := rfl
  rw [e, expect_smul, expect_dot, smul_eq_mul]

/-- **Two samples of different training batches**: the mean squared difference of their scores is the squared difference of the mean scores plus
the variances of both. -/
theorem C222_different_batches [Inhabited Ω] (a : Args Ω p) (hb : 0 < a.bs) (hb' : 0 < a.bs') (hK : a.K ≠ 0) (hr : a.relatif = none)
    (i i' j : ℕ) (hi : i < a.n) (hi' : i' < a.n) (hj : j < a.m) (hne : i / a.bs ≠ i' / a.bs) :
    expect (fun ω : Fin (a.K * numBatches a.bs a.n * (0 + numBatches a.bs' a.m)) → Ω =>
        ((attributeLissa a (drawSeq ω)).out i j - (attributeLissa a (drawSeq ω)).out i' j) ^ 2) =
      (∑ k : Fin a.K, (expect (share a k i j) - expect (share a k i' j))) ^ 2 +
        ∑ k : Fin a.K, (variance (share a k i j) + variance (share a k i' j)) := by
  have hT := numBatches_gt _ _ _ hb hi
  have hT' := numBatches_gt _ _ _ hb hi'
  have hS := numBatches_gt _ _ _ hb' hj
  let e : Fin a.K × Bool → Fin (a.K * numBatches a.bs a.n * (0 + numBatches a.bs' a.m)) := fun x =>
    if x.2 then ⟨callIdx (numBatches a.bs a.n) (numBatches a.bs' a.m) 0 x.1 (i / a.bs) (j / a.bs'), callIdx_lt _ _ _ _ _ _ x.1.2 hT hS⟩
    else ⟨callIdx (numBatches a.bs a.n) (numBatches a.bs' a.m) 0 x.1 (i' / a.bs) (j / a.bs'), callIdx_lt _ _ _ _ _ _ x.1.2 hT' hS⟩
  let h : Fin a.K × Bool → Ω → ℝ := fun x ω => if x.2 then share a x.1 i j ω else -share a x.1 i' j ω
  have he : Function.Injective e := by
    rintro ⟨k, b⟩ ⟨k', b'⟩ hh
    cases b <;> cases b' <;> simp only [e, if_true, if_false, Bool.false_eq_true, Fin.mk.injEq] at hh
    · have := C222_calls_distinct _ _ _ _ _ _ _ _ _ hT' hT' hS hS hh
      rw [Fin.ext this.1]
    · exact absurd (C222_calls_distinct _ _ _ _ _ _ _ _ _ hT' hT hS hS hh).2.1 hne.symm
    · exact absurd (C222_calls_distinct _ _ _ _ _ _ _ _ _ hT hT' hS hS hh).2.1 hne
    · have := C222_calls_distinct _ _ _ _ _ _ _ _ _ hT hT hS hS hh
      rw [Fin.ext this.1]
  have hsum : ∀ ω : Fin (a.K * numBatches a.bs a.n * (0 + numBatches a.bs' a.m)) → Ω,
      (attributeLissa a (drawSeq ω)).out i j - (attributeLissa a (drawSeq ω)).out i' j = ∑ x, h x (ω (e x)) := by
    intro ω
    rw [score_shares a hb hb' hK hr i j hi hj, score_shares a hb hb' hK hr i' j hi' hj, Fintype.sum_prod_type, ← Finset.sum_sub_distrib]
    apply Finset.sum_congr rfl
    intro k _
    simp [h, e, sub_eq_add_neg]
  simp only [hsum]
  have hneg : ∀ f : Ω → ℝ, expect (fun ω => -f ω) = -expect f := by
    intro f
    have := expect_smul (-1 : ℝ) f
    simpa using this
  have hvar : ∀ f : Ω → ℝ, variance (fun ω => -f ω) = variance f := by
    intro f
    rw [variance_eq, variance_eq, hneg]
    simp
  rw [second_moment e he h, Fintype.sum_prod_type, Fintype.sum_prod_type]
  congr 2
  · apply Finset.sum_congr rfl
    intro k _
    simp [h, hneg, sub_eq_add_neg]
  · funext k
    simp [h, hvar]

/-- **Two samples of one training batch**: only the difference of their gradients meets the noise. -/
theorem C222_one_batch [Inhabited Ω] (a : Args Ω p) (hb : 0 < a.bs) (hb' : 0 < a.bs') (hK : a.K ≠ 0) (hr : a.relatif = none)
    (i i' j : ℕ) (hi : i < a.n) (hi' : i' < a.n) (hj : j < a.m) (heq : i / a.bs = i' / a.bs) :
    expect (fun ω : Fin (a.K * numBatches a.bs a.n * (0 + numBatches a.bs' a.m)) → Ω =>
        ((attributeLissa a (drawSeq ω)).out i j - (attributeLissa a (drawSeq ω)).out i' j) ^ 2) =
      (∑ k : Fin a.K, (expect (share a k i j) - expect (share a k i' j))) ^ 2 +
        ∑ k : Fin a.K, variance (fun ω => (a.K : ℝ)⁻¹ * ((a.g k i - a.g k i') ⬝ᵥ a.est k ω (j % a.bs') (a.t k j))) := by
  have hT := numBatches_gt _ _ _ hb hi
  have hS := numBatches_gt _ _ _ hb' hj
  have hsh : ∀ (k : Fin a.K) ω, (a.K : ℝ)⁻¹ * ((a.g k i - a.g k i') ⬝ᵥ a.est k ω (j % a.bs') (a.t k j)) = share a k i j ω - share a k i' j ω := by
    intro k ω
    simp only [share, sub_dotProduct]
    ring
  let e : Fin a.K → Fin (a.K * numBatches a.bs a.n * (0 + numBatches a.bs' a.m)) := fun k =>
    ⟨callIdx (numBatches a.bs a.n) (numBatches a.bs' a.m) 0 k (i / a.bs) (j / a.bs'), callIdx_lt _ _ _ _ _ _ k.2 hT hS⟩
  have he : Function.Injective e := by
    intro k k' hh
    simp only [e, Fin.mk.injEq] at hh
    exact Fin.ext (C222_calls_distinct _ _ _ _ _ _ _ _ _ hT hT hS hS hh).1
  have hsum : ∀ ω : Fin (a.K * numBatches a.bs a.n * (0 + numBatches a.bs' a.m)) → Ω,
      (attributeLissa a (drawSeq ω)).out i j - (attributeLissa a (drawSeq ω)).out i' j =
        ∑ k : Fin a.K, (fun k ω => share a (k : Fin a.K) i j ω - share a (k : Fin a.K) i' j ω) k (ω (e k)) := by
    intro ω
    rw [score_shares a hb hb' hK hr i j hi hj, score_shares a hb hb' hK hr i' j hi' hj, ← Finset.sum_sub_distrib]
    apply Finset.sum_congr rfl
    intro k _
    simp only [e, heq]
  simp only [hsum, hsh]
  refine (second_moment e he (fun k ω => share a (k : Fin a.K) i j ω - share a (k : Fin a.K) i' j ω)).trans ?_
  congr 2
  apply Finset.sum_congr rfl
  intro k _
  have := expect_add (share a k i j) (fun ω => (-1 : ℝ) • share a k i' j ω)
  rw [expect_smul] at this
  simp only [smul_eq_mul, neg_one_mul, ← sub_eq_add_neg] at this
  exact this

/-- **Duplicates**: the scores of two copies of a training sample agree in every execution if they are in one training batch; in different
batches their mean squared difference is twice the variance of a score, so they agree always only if the score is not random at all. -/
theorem C222_duplicates [Inhabited Ω] (a : Args Ω p) (hb : 0 < a.bs) (hb' : 0 < a.bs') (hK : a.K ≠ 0) (hr : a.relatif = none)
    (i i' j : ℕ) (hi : i < a.n) (hi' : i' < a.n) (hj : j < a.m) (hg : ∀ k < a.K, a.g k i = a.g k i') :
    expect (fun ω : Fin (a.K * numBatches a.bs a.n * (0 + numBatches a.bs' a.m)) → Ω =>
        ((attributeLissa a (drawSeq ω)).out i j - (attributeLissa a (drawSeq ω)).out i' j) ^ 2) =
      if i / a.bs = i' / a.bs then 0 else 2 * ∑ k : Fin a.K, variance (share a k i j) := by
  have hs : ∀ k : Fin a.K, share a k i' j = share a k i j := by
    intro k; funext ω; simp only [share, hg k k.2]
  by_cases h : i / a.bs = i' / a.bs
  · rw [if_pos h]
    simp only [C222_same_batch a hb hb' hK hr _ i i' j hi hi' hj h hg, sub_self]
    norm_num
    exact expect_const 0
  · rw [if_neg h, C222_different_batches a hb hb' hK hr i i' j hi hi' hj h]
    simp only [hs, sub_self, Finset.sum_const_zero]
    rw [Finset.mul_sum]
    norm_num
    exact Finset.sum_congr rfl fun k _ => by ring

omit [Nonempty Ω] in
theorem variance_nonneg (f : Ω → ℝ) : 0 ≤ variance f := by
  simp only [variance, expect, smul_eq_mul]
  apply mul_nonneg (by positivity)
  exact Finset.sum_nonneg fun ω _ => sq_nonneg _

theorem variance_zero (f : Ω → ℝ) : variance f = 0 ↔ ∀ ω ω', f ω = f ω' := by
  constructor
  · intro h
    have hc : (Fintype.card Ω : ℝ)⁻¹ ≠ 0 := inv_ne_zero (by exact_mod_cast Fintype.card_ne_zero)
    simp only [variance, expect, smul_eq_mul] at h
    have h2 := (mul_eq_zero.1 h).resolve_left hc
    rw [Finset.sum_eq_zero_iff_of_nonneg (fun ω _ => sq_nonneg _)] at h2
    intro ω ω'
    have a1 := h2 ω (Finset.mem_univ _)
    have a2 := h2 ω' (Finset.mem_univ _)
    have b1 := pow_eq_zero_iff (two_ne_zero) |>.1 a1
    have b2 := pow_eq_zero_iff (two_ne_zero) |>.1 a2
    linarith
  · intro h
    obtain ⟨ω0⟩ := ‹Nonempty Ω›
    have : f = fun _ => f ω0 := by funext ω; exact h ω ω0
    have hc : expect f = f ω0 := by rw [this]; exact expect_const _
    simp only [variance, hc, h _ ω0, sub_self]
    norm_num
    exact expect_const 0

/-- Copies of a sample in different training batches have equal scores in all executions exactly if no estimate entering the score is
random. -/
theorem C222_duplicates_agree_iff [Inhabited Ω] (a : Args Ω p) (hb : 0 < a.bs) (hb' : 0 < a.bs') (hK : a.K ≠ 0) (hr : a.relatif = none)
    (i i' j : ℕ) (hi : i < a.n) (hi' : i' < a.n) (hj : j < a.m) (hg : ∀ k < a.K, a.g k i = a.g k i') (hne : i / a.bs ≠ i' / a.bs) :
    (∀ ω : Fin (a.K * numBatches a.bs a.n * (0 + numBatches a.bs' a.m)) → Ω,
      (attributeLissa a (drawSeq ω)).out i j = (attributeLissa a (drawSeq ω)).out i' j) ↔
      ∀ k < a.K, ∀ ω ω' : Ω, a.g k i ⬝ᵥ a.est k ω (j % a.bs') (a.t k j) = a.g k i ⬝ᵥ a.est k ω' (j % a.bs') (a.t k j) := by
  have hK' : (a.K : ℝ)⁻¹ ≠ 0 := inv_ne_zero (by exact_mod_cast hK)
  have hd := C222_duplicates a hb hb' hK hr i i' j hi hi' hj hg
  rw [if_neg hne] at hd
  constructor
  · intro h k hk ω ω'
    simp only [h, sub_self, ne_eq, OfNat.ofNat_ne_zero, not_false_eq_true, zero_pow, expect_const] at hd
    have hz : ∑ k : Fin a.K, variance (share a k i j) = 0 := by linarith
    rw [Finset.sum_eq_zero_iff_of_nonneg (fun k _ => variance_nonneg _)] at hz
    have := (variance_zero _).1 (hz ⟨k, hk⟩ (Finset.mem_univ _)) ω ω'
    simp only [share] at this
    exact mul_left_cancel₀ hK' this
  · intro h ω
    rw [score_shares a hb hb' hK hr i j hi hj, score_shares a hb hb' hK hr i' j hi' hj]
    apply Finset.sum_congr rfl
    intro k _
    simp only [share, ← hg k k.2]
    rw [h k k.2]

end

/-! ## With the LiSSA estimates themselves -/

/-- The model's estimate for one batch of the cached loader is what `ihvp_lissa` returns. -/
theorem C222_estimate_is_lissa (hv : ℕ → ℕ → List ℕ → Matrix (Fin p) (Fin p) ℝ) (batchSize numRepeat depth : ℕ) (damping scaling : ℝ)
    (hrep : numRepeat ≠ 0) (hs : scaling ≠ 0) (k : ℕ) (ω : ℕ → ℕ → ℕ → ℕ → List ℕ) (r : ℕ) (v : Fin p → ℝ) :
    Verif.Hessian.ihvpLissa (hv k 0) (ω 0 r) batchSize numRepeat depth damping scaling v =
      .ok (some (estimate 1 hv batchSize numRepeat depth damping scaling k ω r v)) := by
  simp [Verif.Hessian.ihvpLissa, hrep, hs, estimate]

/-- **Full batches**: if the batch size of LiSSA is at least the size of every cached batch and the Hessian of a batch does not depend on the order of
its samples, the scores do not depend on the draws; so copies of a sample then have equal scores wherever they stand. -/
theorem C222_full_batches (B : ℕ) (hv : ℕ → ℕ → List ℕ → Matrix (Fin p) (Fin p) ℝ) (N : ℕ → ℕ) (batchSize numRepeat depth : ℕ)
    (damping scaling : ℝ) (hperm : ∀ k fb l l', l.Perm l' → hv k fb l = hv k fb l') (hfull : ∀ fb < B, N fb ≤ batchSize)
    (ω ω' : ℕ → ℕ → ℕ → ℕ → List ℕ) (hω : ∀ fb r rep step, (ω fb r rep step).Perm (List.range (N fb)))
    (hω' : ∀ fb r rep step, (ω' fb r rep step).Perm (List.range (N fb))) (k r r' : ℕ) (v : Fin p → ℝ) :
    estimate B hv batchSize numRepeat depth damping scaling k ω r v = estimate B hv batchSize numRepeat depth damping scaling k ω' r' v := by
  have hrec : ∀ fb < B, ∀ rep T, lissaRec (hv k fb) (ω fb r rep) batchSize damping scaling v T =
      lissaRec (hv k fb) (ω' fb r' rep) batchSize damping scaling v T := by
    intro fb hfb rep T
    induction T with
    | zero => rfl
    | succ T ih =>
      simp only [lissaRec, ih, Verif.Hessian.sampleBatch]
      have h1 : (ω fb r rep T).take batchSize = ω fb r rep T :=
        List.take_of_length_le (by rw [(hω fb r rep T).length_eq, List.length_range]; exact hfull fb hfb)
      have h2 : (ω' fb r' rep T).take batchSize = ω' fb r' rep T :=
        List.take_of_length_le (by rw [(hω' fb r' rep T).length_eq, List.length_range]; exact hfull fb hfb)
      rw [h1, h2, hperm k fb _ _ ((hω fb r rep T).trans (hω' fb r' rep T).symm)]
  simp only [estimate]
  congr 1
  apply List.map_congr_left
  intro fb hfb
  rw [List.mem_range] at hfb
  congr 2
  apply List.map_congr_left
  intro rep _
  rw [hrec fb hfb]

/-- With full batches, copies of a sample have equal scores in every pair of executions, wherever they stand. -/
theorem C222_full_batches_scores (a : Args (ℕ → ℕ → ℕ → ℕ → List ℕ) p) (B : ℕ) (hv : ℕ → ℕ → List ℕ → Matrix (Fin p) (Fin p) ℝ) (N : ℕ → ℕ)
    (batchSize numRepeat depth : ℕ) (damping scaling : ℝ) (hest : a.est = estimate B hv batchSize numRepeat depth damping scaling)
    (hr : a.relatif = none) (hperm : ∀ k fb l l', l.Perm l' → hv k fb l = hv k fb l') (hfull : ∀ fb < B, N fb ≤ batchSize)
    (hb : 0 < a.bs) (hb' : 0 < a.bs') (hK : a.K ≠ 0) (draw draw' : ℕ → ℕ → ℕ → ℕ → ℕ → List ℕ)
    (hω : ∀ c fb r rep step, (draw c fb r rep step).Perm (List.range (N fb)))
    (hω' : ∀ c fb r rep step, (draw' c fb r rep step).Perm (List.range (N fb)))
    (i i' j : ℕ) (hi : i < a.n) (hi' : i' < a.n) (hj : j < a.m) (hg : ∀ k < a.K, a.g k i = a.g k i') :
    (attributeLissa a draw).out i j = (attributeLissa a draw').out i' j := by
  rw [C222_scores a hb hb' hK draw i j hi hj, C222_scores a hb hb' hK draw' i' j hi' hj]
  congr 1
  apply Finset.sum_congr rfl
  intro k hk
  rw [Finset.mem_range] at hk
  have hd : ∀ ω i, denOf a ω k i = 1 := fun ω i => by simp only [denOf, hr]
  rw [hd, hd, hg k hk, hest, C222_full_batches B hv N batchSize numRepeat depth damping scaling hperm hfull _ _ (hω _) (hω' _) k _ (j % a.bs')]

/-- What is drawn in one call with a cached loader of one batch of `N` samples: rows, repeats, steps. -/
abbrev Draw (R rep T N : ℕ) := Fin R → Fin rep → Fin T → Equiv.Perm (Fin N)

/-- As lists of sampled indices. -/
def drawLists {R rep T N : ℕ} (ω : Draw R rep T N) (_fb r : ℕ) : ℕ → ℕ → List ℕ :=
  if h : r < R then drawsAll (ω ⟨r, h⟩) else fun _ _ => []

/-- **The mean score with LiSSA** (one cached batch): every training sample, in whatever batch, has as its mean score the inner product with the
truncated Neumann series of the expected Hessian of a batch applied to the test gradient. -/
theorem C222_lissa_mean {N : ℕ} (a0 : Args Unit p) (hv : ℕ → ℕ → List ℕ → Matrix (Fin p) (Fin p) ℝ) (b rep T : ℕ) (d s : ℝ) (hrep : 0 < rep)
    (hs : s ≠ 0) (hb : 0 < a0.bs) (hb' : 0 < a0.bs') (hK : a0.K ≠ 0) (i j : ℕ) (hi : i < a0.n) (hj : j < a0.m) :
    let a : Args (Draw a0.bs' rep T N) p := ⟨a0.K, a0.n, a0.bs, a0.m, a0.bs', a0.g, a0.t, fun k ω => estimate 1 hv b rep T d s k (drawLists ω), none⟩
    expect (fun ω : Fin (a.K * numBatches a.bs a.n * (0 + numBatches a.bs' a.m)) → Draw a0.bs' rep T N =>
        (attributeLissa a (@drawSeq _ _ ⟨fun _ _ _ => 1⟩ ω)).out i j) =
      (a0.K : ℝ)⁻¹ * ∑ k ∈ Finset.range a0.K, a0.g k i ⬝ᵥ (s⁻¹ • ((∑ q ∈ Finset.range (T + 1),
        (1 - (d • 1 + s⁻¹ • expect fun π : Equiv.Perm (Fin N) => hv k 0 ((permList π).take b))) ^ q) *ᵥ a0.t k j)) := by
  intro a
  let _ : Inhabited (Draw a0.bs' rep T N) := ⟨fun _ _ _ => 1⟩
  rw [C222_mean a hb hb' hK rfl i j hi hj]
  congr 1
  apply Finset.sum_congr rfl
  intro k _
  obtain ⟨est, h1, h2⟩ := Verif.Hessian.C134_mean (N := N) (hv k 0) b rep T d s (a0.t k j) hrep hs
  rw [← h2]
  have hlt : j % a0.bs' < a0.bs' := Nat.mod_lt _ hb'
  have e : (fun ω : Draw a0.bs' rep T N => a.est k ω (j % a.bs') (a.t k j)) = fun ω => est (ω ⟨j % a0.bs', hlt⟩) := by
    funext ω
    have h3 := C222_estimate_is_lissa hv b rep T d s hrep.ne' hs k (drawLists ω) (j % a0.bs') (a0.t k j)
    have h4 : drawLists ω 0 (j % a0.bs') = drawsAll (ω ⟨j % a0.bs', hlt⟩) := by
      simp only [drawLists, dif_pos hlt]
    rw [h4, h1] at h3
    have h5 := Except.ok.inj h3
    exact (Option.some.inj h5).symm
  rw [e, expect_coord' (⟨j % a0.bs', hlt⟩ : Fin a0.bs') est]

/-- One parameter, one checkpoint, one test sample; two copies of a training sample in batches of one; Hessian 0 on the first of two cached samples
and 1 on the second; one LiSSA step on one drawn sample. -/
noncomputable def copies : Args (ℕ → ℕ → ℕ → ℕ → List ℕ) 1 where
  K := 1
  n := 2
  bs := 1
  m := 1
  bs' := 1
  g := fun _ _ _ => 1
  t := fun _ _ _ => 1
  est := estimate 1 (fun _ _ l => if l = [0] then 0 else 1) 1 1 1 0 1
  relatif := none

theorem copies_score (draw : ℕ → ℕ → ℕ → ℕ → ℕ → List ℕ) (i : ℕ) (hi : i < 2) :
    (attributeLissa copies draw).out i 0 = if (draw i 0 0 0 0).take 1 = [0] then 2 else 1 := by
  rw [C222_scores copies (by decide) (by decide) (by decide) draw i 0 hi (by decide)]
  have hc : callIdx (numBatches copies.bs copies.n) (numBatches copies.bs' copies.m) (extra copies) 0 (i / copies.bs) (0 / copies.bs') = i := by
    have e1 : numBatches copies.bs copies.n = 2 := rfl
    have e2 : numBatches copies.bs' copies.m = 1 := rfl
    have e3 : extra copies = 0 := rfl
    have e4 : copies.bs = 1 := rfl
    rw [e1, e2, e3, e4]
    simp [callIdx]
  have hd : ∀ ω k i, denOf copies ω k i = 1 := fun _ _ _ => rfl
  have hK : copies.K = 1 := rfl
  simp only [hK, Finset.sum_range_one, hc, hd, Nat.cast_one, inv_one, one_mul, div_one]
  have hest : copies.est = estimate 1 (fun _ _ l => if l = [0] then 0 else 1) 1 1 1 0 1 := rfl
  have hg : copies.g 0 i = fun _ => 1 := rfl
  have ht : copies.t 0 0 = fun _ => 1 := rfl
  have hm : 0 % copies.bs' = 0 := rfl
  rw [hest, hg, ht, hm]
  simp only [estimate, List.range_one, List.map_cons, List.map_nil, List.sum_cons, List.sum_nil, add_zero, Nat.cast_one, inv_one, one_smul,
    lissaRec, Verif.Hessian.sampleBatch, div_one, sub_zero]
  by_cases h : (draw i 0 0 0 0).take 1 = [0]
  · simp [h, dotProduct]
    norm_num
  · simp [h, dotProduct]

/-- **The order of two copies is decided by the draws**: one execution puts the first above the second, another the second above the first. -/
theorem C222_order_flips : ∃ draw draw' : ℕ → ℕ → ℕ → ℕ → ℕ → List ℕ,
    (∀ c fb r rep step, (draw c fb r rep step).Perm (List.range 2) ∧ (draw' c fb r rep step).Perm (List.range 2)) ∧
    (attributeLissa copies draw).out 1 0 < (attributeLissa copies draw).out 0 0 ∧
    (attributeLissa copies draw').out 0 0 < (attributeLissa copies draw').out 1 0 := by
  refine ⟨fun c _ _ _ _ => if c = 0 then [0, 1] else [1, 0], fun c _ _ _ _ => if c = 0 then [1, 0] else [0, 1], ?_, ?_, ?_⟩
  · intro c fb r rep step
    by_cases h : c = 0 <;> simp only [h, if_true, if_false] <;> exact ⟨by decide, by decide⟩
  · rw [copies_score _ 0 (by decide), copies_score _ 1 (by decide)]
    norm_num
  · rw [copies_score _ 0 (by decide), copies_score _ 1 (by decide)]
    norm_num

/-! ## Cases -/

/-- Two copies in one batch: equal. -/
example (draw : ℕ → ℕ → ℕ → ℕ → ℕ → List ℕ) :
    (attributeLissa { copies with bs := 2 } draw).out 0 0 = (attributeLissa { copies with bs := 2 } draw).out 1 0 :=
  C222_same_batch { copies with bs := 2 } (by decide) (by decide) (by decide) rfl draw 0 1 0 (by decide) (by decide) (by decide) rfl
    (fun _ _ => rfl)

/-- The hypotheses of the theorem on full batches hold for the mean of two sample Hessians. -/
example : ∀ l l' : List ℕ, l.Perm l' → ((l.map fun i : ℕ => (i : ℝ)).sum) = (l'.map fun i : ℕ => (i : ℝ)).sum := fun _ _ h =>
  (h.map _).sum_eq

/-- Seven training samples in batches of three, four test samples in batches of two, two checkpoints: twelve transformations of test batches. -/
example (a : Args Ω p) (h : a.K = 2 ∧ a.n = 7 ∧ a.bs = 3 ∧ a.m = 4 ∧ a.bs' = 2 ∧ a.relatif = none) (draw : ℕ → Ω) :
    (attributeLissa a draw).calls = 12 := by
  obtain ⟨h1, h2, h3, h4, h5, h6⟩ := h
  rw [C222_calls a (by omega) (by omega), h1, h2, h3, h4, h5]
  simp [extra, h6, numBatches]

end Verif.LissaAttr
