import Verif.BlockIF.TaskModel
import Verif.BlockIF.MeanProps
import Verif.EKFAC.GradProps
import Verif.Bench.LossProps
import Mathlib.Analysis.SpecialFunctions.Log.Deriv
import Mathlib.Analysis.SpecialFunctions.ExpDeriv
import Mathlib.Analysis.Calculus.FDeriv.Const

/-!
# C185: what the scores of the block-projected attributors differentiate

`net x w s` are the outputs of the network for the sample `s`, with the weights `w` in the selected layers and the weights of checkpoint `x` elsewhere.
The specification uses only derivatives with respect to `w`.
-/

namespace Verif.BlockIF

open Verif Matrix Verif.DVEmb Verif.EKFAC

variable {κ S : Type} {L c : ℕ} {din dout k₁ k₂ m : Fin L → ℕ}

/-! ### Specification -/

/-- The gradient of `T` with respect to the weights of each layer, compressed: `vec(P₁ G P₂ᵀ)` projected by `R`. -/
noncomputable def compressedGrad (Q : Comp din dout k₁ k₂ m) (T : Weights din dout → ℝ) (w : Weights din dout) : Row ℝ m :=
  fun l i => ∑ p, Q.R l i p * (Q.P1 l * blockGrad T w l * (Q.P2 l)ᵀ) p.1 p.2

/-- The network uses every selected layer once. -/
def Describes (N : Net κ S c din dout) (net : κ → Weights din dout → S → Fin c → ℝ) : Prop :=
  ∀ x l s V, net x (Function.update (N.W x) l V) s = N.out x l s (layerOut V (N.inp x l s))

/-- Minus the log-probability of the label. -/
noncomputable def labelLoss (lab : S → ℤ) (s : S) (z : Fin c → ℝ) : ℝ := BenchLoss.nll (-100) z (lab s)

/-- Number of samples of a batch whose label is not -100. -/
def counted (lab : S → ℤ) (b : List S) : ℕ := b.countP fun s => lab s ≠ -100

/-! ### Helper lemmas: compression -/

theorem compress_two (l : Fin L) (Q : Comp din dout k₁ k₂ m) (B : ℕ) (a : Fin (din l) → ℝ) (g : Fin (dout l) → ℝ) (i : Fin (m l)) :
    compress (Q.P1 l) (Q.P2 l) (Q.R l) B (.two a g) i = (B : ℝ) * ∑ p, Q.R l i p * (Q.P1 l * vecMulVec g a * (Q.P2 l)ᵀ) p.1 p.2 := by
  simp only [compress, mulVec, dotProduct]
  rw [Finset.mul_sum]
  refine Finset.sum_congr rfl fun p _ => ?_
  have : (Q.P1 l * vecMulVec g a * (Q.P2 l)ᵀ) p.1 p.2 = (∑ j, Q.P1 l p.1 j * g j) * ∑ j, Q.P2 l p.2 j * a j := by
    rw [Matrix.mul_vecMulVec, Matrix.vecMulVec_mul, vecMulVec_apply]
    simp only [mulVec, dotProduct, vecMul, transpose_apply]
    congr 1
    exact Finset.sum_congr rfl fun j _ => mul_comm _ _
  rw [this]
  ring

theorem gradAt_smul {q : ℕ} (w : ℝ) (f : (Fin q → ℝ) → ℝ) (z : Fin q → ℝ) (hf : DifferentiableAt ℝ f z) :
    Attr.gradAt (fun y => w * f y) z = w • Attr.gradAt f z := by
  funext i
  simp only [Attr.gradAt, Pi.smul_apply, smul_eq_mul]
  rw [fderiv_const_mul hf]
  simp

/-- Rows of a batch whose value is a weighted sum over its samples. -/
theorem batchRows_weighted (N : Net κ S c din dout) (Q : Comp din dout k₁ k₂ m) (net : κ → Weights din dout → S → Fin c → ℝ) (hN : Describes N net)
    (x : κ) (b : List S) (F : (Fin b.length → Fin c → ℝ) → ℝ) (w : S → ℝ) (e : S → (Fin c → ℝ) → ℝ)
    (hF : ∀ z, F z = ∑ k, w b[k] * e b[k] (z k))
    (hd : ∀ s ∈ b, ∀ l, DifferentiableAt ℝ (fun z => e s (N.out x l s z)) (layerOut (N.W x l) (N.inp x l s))) :
    batchRows N Q x b F = b.map fun s => ((b.length : ℝ) * w s) • compressedGrad Q (fun v => e s (net x v s)) (N.W x) := by
  apply List.ext_getElem
  · simp [batchRows]
  · intro k h1 h2
    have hk : k < b.length := by simpa [batchRows] using h1
    simp only [batchRows, List.getElem_ofFn, List.getElem_map]
    funext l i
    have hmem : b[k] ∈ b := List.getElem_mem _
    have h := outGrad_scaled (fun j : Fin b.length => fun z => w b[j] * e b[j] (N.out x l b[j] z)) (fun j => layerOut (N.W x l) (N.inp x l b[j])) 1
      (fun j => (hd _ (List.getElem_mem _) l).const_mul _) ⟨k, hk⟩
    have hFF : (fun z : Fin b.length → Fin (dout l) → ℝ => F fun j => N.out x l b[j] (z j)) =
        fun z => (∑ j : Fin b.length, (fun z => w b[j] * e b[j] (N.out x l b[j] z)) (z j)) * 1 := by
      funext z
      rw [hF, mul_one]
    rw [hFF, h, one_smul, compress_two]
    have hg : blockGrad (fun v => e b[k] (net x v b[k])) (N.W x) l =
        vecMulVec (Attr.gradAt (fun z => e b[k] (N.out x l b[k] z)) (layerOut (N.W x l) (N.inp x l b[k]))) (N.inp x l b[k]) := by
      unfold blockGrad
      simp only [hN x l]
      exact weightGrad_layer (fun z => e b[k] (N.out x l b[k] z)) (N.inp x l b[k]) (N.W x l) (hd _ hmem l)
    have hs := gradAt_smul (w b[k]) (fun z => e b[k] (N.out x l b[k] z)) (layerOut (N.W x l) (N.inp x l b[k])) (hd _ hmem l)
    simp only [Fin.getElem_fin] at hs ⊢
    rw [hs]
    simp only [Pi.smul_apply, smul_eq_mul, compressedGrad, hg]
    rw [mul_assoc]
    congr 1
    rw [Finset.mul_sum]
    refine Finset.sum_congr rfl fun p _ => ?_
    rw [smul_vecMulVec, Matrix.mul_smul, Matrix.smul_mul, Matrix.smul_apply, smul_eq_mul]
    ring

/-! ### Helper lemmas: cross entropy -/

theorem labelLoss_differentiable (lab : S → ℤ) (s : S) (z : Fin c → ℝ) : DifferentiableAt ℝ (labelLoss (c := c) lab s) z := by
  unfold labelLoss BenchLoss.nll
  by_cases h : lab s ≠ -100 ∧ 0 ≤ lab s ∧ lab s < c
  · have hne : ∀ y : Fin c → ℝ, (∑ u, Real.exp (y u)) ≠ 0 := by
      intro y
      have : (Finset.univ : Finset (Fin c)).Nonempty := ⟨⟨(lab s).toNat, by omega⟩, Finset.mem_univ _⟩
      exact (Finset.sum_pos (fun _ _ => Real.exp_pos _) this).ne'
    have e : (fun y : Fin c → ℝ => -Real.log (Real.exp (y ⟨(lab s).toNat, by omega⟩) / ∑ u, Real.exp (y u))) =
        fun y => Real.log (∑ u, Real.exp (y u)) - y ⟨(lab s).toNat, by omega⟩ := by
      funext y
      rw [Real.log_div (Real.exp_pos _).ne' (hne y), Real.log_exp]
      ring
    have e2 : (fun y : Fin c → ℝ => if hh : lab s ≠ -100 ∧ 0 ≤ lab s ∧ lab s < c then
        -Real.log (Real.exp (y ⟨(lab s).toNat, by omega⟩) / ∑ u, Real.exp (y u)) else 0) =
        fun y => Real.log (∑ u, Real.exp (y u)) - y ⟨(lab s).toNat, by omega⟩ := by
      rw [← e]
      funext y
      rw [dif_pos h]
    have hd : DifferentiableAt ℝ (fun y : Fin c → ℝ => Real.log (∑ u, Real.exp (y u)) - y ⟨(lab s).toNat, by omega⟩) z := by
      refine DifferentiableAt.sub (DifferentiableAt.log ?_ (hne z)) (differentiableAt_apply _ _)
      exact DifferentiableAt.fun_sum fun u _ => (differentiableAt_apply u z).exp
    rw [e2]
    exact hd
  · have e2 : (fun y : Fin c → ℝ => if hh : lab s ≠ -100 ∧ 0 ≤ lab s ∧ lab s < c then
        -Real.log (Real.exp (y ⟨(lab s).toNat, by omega⟩) / ∑ u, Real.exp (y u)) else 0) = fun _ => 0 := by
      funext y
      rw [dif_neg h]
    rw [e2]
    exact differentiableAt_const _

theorem meanCE_eq (lab : S → ℤ) (b : List S) (z : Fin b.length → Fin c → ℝ) :
    meanCE lab b z = ∑ k, (counted lab b : ℝ)⁻¹ * labelLoss lab b[k] (z k) := by
  unfold meanCE counted
  rw [← List.countP_eq_length_filter, Finset.sum_div]
  refine Finset.sum_congr rfl fun k _ => ?_
  rw [inv_mul_eq_div]
  congr 1
  unfold labelLoss BenchLoss.nll
  by_cases h1 : lab b[k] = -100
  · rw [if_pos h1, dif_neg (fun h => h.1 h1)]
  · by_cases h2 : 0 ≤ lab b[k] ∧ lab b[k] < c
    · rw [if_neg h1, dif_pos h2, dif_pos ⟨h1, h2⟩]
      have hp : 0 < ∑ u, Real.exp (z k u) := by
        have : (Finset.univ : Finset (Fin c)).Nonempty := ⟨⟨(lab b[k]).toNat, by omega⟩, Finset.mem_univ _⟩
        exact Finset.sum_pos (fun _ _ => Real.exp_pos _) this
      rw [Real.log_div (Real.exp_pos _).ne' hp.ne', Real.log_exp, LogReg.logSoftmax]
    · rw [if_neg h1, dif_neg h2, dif_neg (fun h => h2 h.2)]

/-! ### Helper lemmas: the session -/

theorem load_cur (inPlace : Bool) (t : TaskSt) (i : ℕ) : (t.load inPlace i).cur = some i := by
  unfold TaskSt.load
  split_ifs with h h2 <;> simp_all

/-- The task's own object holds the remembered checkpoint. -/
def TaskOk (t : TaskSt) : Prop := t.ptr < t.heap.length ∧ ∀ i, t.cur = some i → t.heap.getD t.ptr none = some i

theorem load_ok (inPlace : Bool) {t : TaskSt} (h : TaskOk t) (i : ℕ) : TaskOk (t.load inPlace i) := by
  unfold TaskSt.load
  split_ifs with h1 h2
  · exact h
  · refine ⟨by simpa using h.1, fun j hj => ?_⟩
    simp only [Option.some.injEq] at hj
    subst hj
    simp [List.getD_eq_getElem?_getD, List.getElem?_set_self h.1]
  · refine ⟨by simp, fun j hj => ?_⟩
    simp only [Option.some.injEq] at hj
    subst hj
    simp [List.getD_eq_getElem?_getD]

theorem loads_ok (inPlace : Bool) (l : List ℕ) : ∀ {t : TaskSt}, TaskOk t → TaskOk (t.loads inPlace l) := by
  induction l with
  | nil => exact fun h => h
  | cons i l ih => exact fun h => ih (load_ok inPlace h i)

theorem loads_inPlace (l : List ℕ) : ∀ {t : TaskSt} {i : ℕ}, TaskOk t → t.cur = some i →
    (t.loads true l).ptr = t.ptr ∧ (t.loads true l).heap.getD t.ptr none = some (l.getLastD i) := by
  induction l with
  | nil => exact fun h hi => ⟨rfl, h.2 _ hi⟩
  | cons j l ih =>
    intro t i h hi
    have hp : (t.load true j).ptr = t.ptr := by
      unfold TaskSt.load
      split_ifs with h1 h2
      · rfl
      · rfl
      · exact absurd rfl h2
    obtain ⟨h1, h2⟩ := ih (load_ok true h j) (load_cur true t j)
    rw [hp] at h1 h2
    refine ⟨h1, ?_⟩
    change ((t.load true j).loads true l).heap.getD t.ptr none = _
    rw [h2, List.getLastD_cons]

theorem loads_fresh (l : List ℕ) : ∀ {t : TaskSt} {o : ℕ}, o < t.heap.length →
    (t.loads false l).heap.getD o none = t.heap.getD o none := by
  induction l with
  | nil => exact fun _ => rfl
  | cons j l ih =>
    intro t o ho
    have hh : o < (t.load false j).heap.length ∧ (t.load false j).heap.getD o none = t.heap.getD o none := by
      unfold TaskSt.load
      split_ifs with h1 h2
      · exact ⟨ho, rfl⟩
      · exact absurd h2 (by simp)
      · exact ⟨by simp; omega, by simp [List.getD_eq_getElem?_getD, List.getElem?_append_left ho]⟩
    change ((t.load false j).loads false l).heap.getD o none = _
    rw [ih hh.1, hh.2]

/-! ### C185 -/

/-- **C185** (which checkpoint). With the default load function the attributor's model is the task's: caching uses the checkpoint that was last loaded
through the task by anyone, the first one if nothing was loaded since the attributor was made, and so does attribution; they differ if another attributor
of the task loads another checkpoint in between. With a load function that returns a new model, the first checkpoint is used both times. What other
checkpoints the task has never matters. -/
theorem C185_checkpoint (before between after : List ℕ) :
    held true before between after = (some (between.getLastD 0), some ((between ++ after).getLastD 0)) ∧
    held false before between after = (some 0, some 0) := by
  have hnew : TaskOk TaskSt.new := ⟨by simp [TaskSt.new], fun i hi => by simp [TaskSt.new] at hi⟩
  refine ⟨?_, ?_⟩
  · have h0 := load_ok true (loads_ok true before hnew) 0
    have c0 := load_cur true (TaskSt.new.loads true before) 0
    obtain ⟨-, h2⟩ := loads_inPlace between h0 c0
    obtain ⟨-, h4⟩ := loads_inPlace (between ++ after) h0 c0
    have hl : ((TaskSt.new.loads true before).load true 0).loads true (between ++ after) =
        (((TaskSt.new.loads true before).load true 0).loads true between).loads true after := by
      simp [TaskSt.loads]
    rw [hl] at h4
    unfold held
    simp only [h2, h4]
  · have h0 := load_ok false (loads_ok false before hnew) 0
    have c0 := load_cur false (TaskSt.new.loads false before) 0
    have e1 := loads_fresh between h0.1
    have h1 : ((TaskSt.new.loads false before).load false 0).ptr < (((TaskSt.new.loads false before).load false 0).loads false between).heap.length := by
      by_contra hc
      rw [h0.2 0 c0, List.getD_eq_default _ _ (by omega)] at e1
      cases e1
    have e2 := loads_fresh after h1
    unfold held
    simp only [e2, e1, h0.2 0 c0]

/-- The rows of the training loader when the loss of a batch is `wt b` times the sum over its samples. -/
noncomputable def trainRows (U : Run κ S c din dout k₁ k₂ m) (net : κ → Weights din dout → S → Fin c → ℝ) (wt : List S → ℝ) (e : S → (Fin c → ℝ) → ℝ) (x : κ)
    (bs : List (List S)) : List (Row ℝ m) :=
  bs.flatMap fun b => b.map fun s => ((b.length : ℝ) * wt b) • compressedGrad U.comp (fun v => e s (net x v s)) (U.net.W x)

/-- The rows of the test loader for a model that returns its outputs only. -/
noncomputable def testRows (U : Run κ S c din dout k₁ k₂ m) (net : κ → Weights din dout → S → Fin c → ℝ) (x : κ) (bs : List (List S)) : List (Row ℝ m) :=
  bs.flatMap fun b => b.map fun s => ((b.length : ℝ) / counted U.lab b) • compressedGrad U.comp (fun v => labelLoss U.lab s (net x v s)) (U.net.W x)

theorem train_eq (U : Run κ S c din dout k₁ k₂ m) (net : κ → Weights din dout → S → Fin c → ℝ) (hN : Describes U.net net) (wt : List S → ℝ)
    (e : S → (Fin c → ℝ) → ℝ) (hloss : ∀ b z, U.task.loss b z = wt b * ∑ k, e b[k] (z k)) (x : κ) (bs : List (List S))
    (hd : ∀ s ∈ bs.flatten, ∀ l, DifferentiableAt ℝ (fun z => e s (U.net.out x l s z)) (layerOut (U.net.W x l) (U.net.inp x l s))) :
    trainBatches U.net U.comp U.task x bs =
      bs.map fun b => b.map fun s => ((b.length : ℝ) * wt b) • compressedGrad U.comp (fun v => e s (net x v s)) (U.net.W x) := by
  unfold trainBatches
  refine List.map_congr_left fun b hb => ?_
  exact batchRows_weighted U.net U.comp net hN x b _ (fun _ => wt b) e (fun z => by rw [hloss, Finset.mul_sum])
    fun s hs => hd s (List.mem_flatten.2 ⟨b, hb, hs⟩)

theorem mapM_ok_of {α β : Type} (f : α → Except Err β) (g : α → β) (l : List α) (h : ∀ a ∈ l, f a = .ok (g a)) : l.mapM f = .ok (l.map g) := by
  induction l with
  | nil => rfl
  | cons a l ih =>
    rw [List.mapM_cons, h a (by simp), ih fun b hb => h b (List.mem_cons_of_mem _ hb)]
    rfl

theorem run_eq (U : Run κ S c din dout k₁ k₂ m) (x₀ x₁ : κ) (spec spec' : Loader) (train test : List (List S)) (again : Data ℝ m)
    (hs : Served spec train) (hne : train ≠ []) (ht : test.flatten ≠ []) (hm : ∑ l, m l ≠ 0) {R T : List (List (Row ℝ m))}
    (hR : trainBatches U.net U.comp U.task x₀ train = R) (hT : testBatches U.net U.comp U.form U.returns U.lab x₁ test = .ok T)
    (hl : T.flatten.length = test.flatten.length)
    (hinv : U.hess = .identity ∨ ∀ l, Active l R.flatten → (damped (U.damping.getD (1 / 100000)) l R.flatten).det ≠ 0) :
    ∃ M, U.scores x₀ x₁ spec spec' train test again = .ok M ∧
      Scores M (R.flatten.map (preconditioned U.hess (U.damping.getD (1 / 100000)) R.flatten)) T.flatten := by
  have hwf : (⟨spec, R⟩ : Data ℝ m).WF := by
    refine ⟨hs.real, ?_, ?_⟩
    · rw [← hR]
      simpa [trainBatches] using hs.length
    · intro k b hb
      rw [← hR] at hb
      simp only [trainBatches, List.getElem?_map, Option.map_eq_some_iff] at hb
      obtain ⟨b', hb', rfl⟩ := hb
      simpa [batchRows] using hs.sizes k b' hb'
  have hne' : R ≠ [] := by
    rw [← hR]
    simpa [trainBatches] using hne
  have ht' : T.flatten ≠ [] := by
    intro h
    rw [h] at hl
    exact ht (List.length_eq_zero_iff.1 hl.symm)
  have hcache : ∃ st, cache U.hess U.damping (St.new ℝ m none) ⟨spec, R⟩ = (st, .ok ()) := by
    rcases hh : U.hess with _ | _
    · obtain ⟨st, h1, -⟩ := stored_cache (stored_new (K := ℝ)) hwf hne' (fun hl => by rw [List.length_eq_zero_iff.1 hl])
      exact ⟨st, by unfold cache; rw [h1]⟩
    · rw [hh] at hinv
      exact (C60_succeeds U.damping hwf hne').2 (by simpa using hinv)
  obtain ⟨st, hst⟩ := hcache
  obtain ⟨M, h1, h2⟩ := C60_entries U.hess U.damping hwf hne' hst again ⟨spec', T⟩ ht' hm
  refine ⟨M, ?_, h2⟩
  unfold Run.scores
  rw [hR, hst]
  simp only
  rw [hT]
  exact h1

/-- **C185** (scores). Cache with the weights of checkpoint `x₀`, attribute with those of `x₁`; the task's loss of a batch is `wt b` times the sum of the
samples' losses `e` (the mean, the sum, …), the model returns its outputs only, and the test labels are classes or -100. The entry for a training and a
test sample is the inner product of their compressed gradients (preconditioned for the empirical Fisher matrix): on the training side of the task's loss,
times the batch size and `wt b`; on the test side of minus the log-probability of the label, times the batch size over the number of labels that are not
-100, whatever the task's target function. -/
theorem C185_scores (U : Run κ S c din dout k₁ k₂ m) (net : κ → Weights din dout → S → Fin c → ℝ) (hN : Describes U.net net) (wt : List S → ℝ)
    (e : S → (Fin c → ℝ) → ℝ) (hloss : ∀ b z, U.task.loss b z = wt b * ∑ k, e b[k] (z k)) (hform : U.form = .tuple 2) (hret : U.returns = .plain)
    (x₀ x₁ : κ) (spec spec' : Loader) (train test : List (List S)) (again : Data ℝ m) (hs : Served spec train) (hne : train ≠ [])
    (ht : test.flatten ≠ []) (hm : ∑ l, m l ≠ 0) (hlab : ∀ s ∈ test.flatten, BenchLoss.Valid (-100) c (U.lab s))
    (hd₀ : ∀ s ∈ train.flatten, ∀ l, DifferentiableAt ℝ (fun z => e s (U.net.out x₀ l s z)) (layerOut (U.net.W x₀ l) (U.net.inp x₀ l s)))
    (hd₁ : ∀ s ∈ test.flatten, ∀ l, DifferentiableAt ℝ (U.net.out x₁ l s) (layerOut (U.net.W x₁ l) (U.net.inp x₁ l s)))
    (hinv : U.hess = .identity ∨ ∀ l, Active l (trainRows U net wt e x₀ train) →
      (damped (U.damping.getD (1 / 100000)) l (trainRows U net wt e x₀ train)).det ≠ 0) :
    ∃ M, U.scores x₀ x₁ spec spec' train test again = .ok M ∧
      Scores M ((trainRows U net wt e x₀ train).map (preconditioned U.hess (U.damping.getD (1 / 100000)) (trainRows U net wt e x₀ train)))
        (testRows U net x₁ test) := by
  have hR := train_eq U net hN wt e hloss x₀ train hd₀
  have hT : testBatches U.net U.comp U.form U.returns U.lab x₁ test = .ok (test.map fun b => b.map fun s =>
      ((b.length : ℝ) / counted U.lab b) • compressedGrad U.comp (fun v => labelLoss U.lab s (net x₁ v s)) (U.net.W x₁)) := by
    refine mapM_ok_of _ _ _ fun b hb => ?_
    have hv : (b.all fun s => U.lab s == -100 || (0 ≤ U.lab s && U.lab s < c)) = true := by
      rw [List.all_eq_true]
      intro s hsb
      rcases hlab s (List.mem_flatten.2 ⟨b, hb, hsb⟩) with h | h
      · simp [h]
      · simp [h.1, h.2]
    rw [hform, hret]
    simp only [testLoss, ne_eq, not_true_eq_false, if_false, hv, if_true, Except.map]
    rw [batchRows_weighted U.net U.comp net hN x₁ b _ (fun _ => (counted U.lab b : ℝ)⁻¹) (labelLoss U.lab) (meanCE_eq U.lab b) fun s hsb l =>
      (labelLoss_differentiable U.lab s _).comp _ (hd₁ s (List.mem_flatten.2 ⟨b, hb, hsb⟩) l)]
    simp only [div_eq_mul_inv]
  have := run_eq U x₀ x₁ spec spec' train test again hs hne ht hm hR hT (by simp [List.length_flatten, Function.comp_def]) (by
    simpa only [trainRows, List.flatMap_def] using hinv)
  simpa only [trainRows, testRows, List.flatMap_def] using this

theorem compressedGrad_const (Q : Comp din dout k₁ k₂ m) (a : ℝ) (w : Weights din dout) : compressedGrad Q (fun _ => a) w = 0 := by
  funext l i
  have : blockGrad (fun _ : Weights din dout => a) w l = 0 := by
    ext r s
    simp [blockGrad, weightGrad]
  simp [compressedGrad, this]

theorem flatMap_const_of_mem {α β : Type} (f : List α → α → β) (g : α → β) (bs : List (List α)) (h : ∀ b ∈ bs, ∀ s ∈ b, f b s = g s) :
    (bs.flatMap fun b => b.map (f b)) = bs.flatten.map g := by
  rw [List.flatMap_def, List.map_flatten]
  congr 1
  exact List.map_congr_left fun b hb => List.map_congr_left fun s hs => h b hb s hs

/-- **C185** (the usual case). Identity Hessian, a loss averaged over the batch, test labels that are classes: the matrix has a row per training and a
column per test sample, and an entry is the sum over the layers of the inner products of the compressed gradients of the training sample's loss and of
minus the log-probability of the test sample's label, however the two loaders are batched. The target function has no part in it. -/
theorem C185_entries (U : Run κ S c din dout k₁ k₂ m) (net : κ → Weights din dout → S → Fin c → ℝ) (hN : Describes U.net net)
    (e : S → (Fin c → ℝ) → ℝ) (hloss : ∀ b z, U.task.loss b z = (∑ k, e b[k] (z k)) / b.length) (hform : U.form = .tuple 2) (hret : U.returns = .plain)
    (hh : U.hess = .identity) (x₀ x₁ : κ) (spec spec' : Loader) (train test : List (List S)) (again : Data ℝ m) (hs : Served spec train)
    (hne : train ≠ []) (ht : test.flatten ≠ []) (hm : ∑ l, m l ≠ 0) (hlab : ∀ s ∈ test.flatten, 0 ≤ U.lab s ∧ U.lab s < c)
    (hd₀ : ∀ s ∈ train.flatten, ∀ l, DifferentiableAt ℝ (fun z => e s (U.net.out x₀ l s z)) (layerOut (U.net.W x₀ l) (U.net.inp x₀ l s)))
    (hd₁ : ∀ s ∈ test.flatten, ∀ l, DifferentiableAt ℝ (U.net.out x₁ l s) (layerOut (U.net.W x₁ l) (U.net.inp x₁ l s))) :
    ∃ M, U.scores x₀ x₁ spec spec' train test again = .ok M ∧ M.r = train.flatten.length ∧ M.c = test.flatten.length ∧
      ∀ i j s t, train.flatten[i]? = some s → test.flatten[j]? = some t →
        M.f i j = ∑ l, ∑ a, compressedGrad U.comp (fun v => e s (net x₀ v s)) (U.net.W x₀) l a *
          compressedGrad U.comp (fun v => labelLoss U.lab t (net x₁ v t)) (U.net.W x₁) l a := by
  obtain ⟨M, h1, h2⟩ := C185_scores U net hN (fun b => (b.length : ℝ)⁻¹) e (fun b z => by rw [hloss, div_eq_inv_mul]) hform hret x₀ x₁ spec spec' train test again
    hs hne ht hm (fun s hs => Or.inr (hlab s hs)) hd₀ hd₁ (Or.inl hh)
  have e1 : trainRows U net (fun b => (b.length : ℝ)⁻¹) e x₀ train =
      train.flatten.map fun s => compressedGrad U.comp (fun v => e s (net x₀ v s)) (U.net.W x₀) := by
    refine flatMap_const_of_mem _ _ _ fun b hb s hsb => ?_
    have : (b.length : ℝ) ≠ 0 := by
      have := List.length_pos_of_mem hsb
      exact_mod_cast this.ne'
    rw [mul_inv_cancel₀ this, one_smul]
  have e2 : testRows U net x₁ test = test.flatten.map fun s => compressedGrad U.comp (fun v => labelLoss U.lab s (net x₁ v s)) (U.net.W x₁) := by
    refine flatMap_const_of_mem _ _ _ fun b hb s hsb => ?_
    have hc : counted U.lab b = b.length := by
      unfold counted
      rw [List.countP_eq_length]
      intro t htb
      have := (hlab t (List.mem_flatten.2 ⟨b, hb, htb⟩)).1
      simp only [ne_eq, decide_not, Bool.not_eq_eq_eq_not, Bool.not_true, decide_eq_false_iff_not]
      omega
    have : (b.length : ℝ) ≠ 0 := by
      have := List.length_pos_of_mem hsb
      exact_mod_cast this.ne'
    rw [hc, div_self this, one_smul]
  rw [e1, e2, hh] at h2
  have hid : ∀ l : List (Row ℝ m), l.map (preconditioned Hessian.identity (U.damping.getD (1 / 100000)) l) = l := fun l => by
    have : preconditioned Hessian.identity (U.damping.getD (1 / 100000)) l = id := rfl
    rw [this, List.map_id]
  rw [hid] at h2
  refine ⟨M, h1, by rw [h2.r, List.length_map], by rw [h2.c, List.length_map], fun i j s t hi hj => ?_⟩
  exact h2.f i j _ _ (by rw [List.getElem?_map, hi]; rfl) (by rw [List.getElem?_map, hj]; rfl)

/-- **C185** (losses summed over the batch). If the loss of a batch is the sum of the samples' losses instead of the mean, the row of a training sample is
multiplied by the size of the batch it was served in. -/
theorem C185_sum (U : Run κ S c din dout k₁ k₂ m) (net : κ → Weights din dout → S → Fin c → ℝ) (hN : Describes U.net net)
    (e : S → (Fin c → ℝ) → ℝ) (hloss : ∀ b z, U.task.loss b z = ∑ k, e b[k] (z k)) (hform : U.form = .tuple 2) (hret : U.returns = .plain)
    (hh : U.hess = .identity) (x₀ x₁ : κ) (spec spec' : Loader) (pre post : List (List S)) (b : List S) (test : List (List S)) (again : Data ℝ m)
    (hs : Served spec (pre ++ b :: post))
    (ht : test.flatten ≠ []) (hm : ∑ l, m l ≠ 0) (hlab : ∀ s ∈ test.flatten, BenchLoss.Valid (-100) c (U.lab s))
    (hd₀ : ∀ s ∈ (pre ++ b :: post).flatten, ∀ l, DifferentiableAt ℝ (fun z => e s (U.net.out x₀ l s z)) (layerOut (U.net.W x₀ l) (U.net.inp x₀ l s)))
    (hd₁ : ∀ s ∈ test.flatten, ∀ l, DifferentiableAt ℝ (U.net.out x₁ l s) (layerOut (U.net.W x₁ l) (U.net.inp x₁ l s))) :
    ∃ M, U.scores x₀ x₁ spec spec' (pre ++ b :: post) test again = .ok M ∧
      ∀ i j s t, b[i]? = some s → (testRows U net x₁ test)[j]? = some t →
        M.f (pre.flatten.length + i) j = b.length * ∑ l, ∑ a, compressedGrad U.comp (fun v => e s (net x₀ v s)) (U.net.W x₀) l a * t l a := by
  obtain ⟨M, h1, h2⟩ := C185_scores U net hN (fun _ => 1) e (fun b z => by rw [hloss, one_mul]) hform hret x₀ x₁ spec spec' _ test again
    hs (by simp) ht hm hlab hd₀ hd₁ (Or.inl hh)
  rw [hh] at h2
  have hid : ∀ l : List (Row ℝ m), l.map (preconditioned Hessian.identity (U.damping.getD (1 / 100000)) l) = l := fun l => by
    have : preconditioned Hessian.identity (U.damping.getD (1 / 100000)) l = id := rfl
    rw [this, List.map_id]
  rw [hid] at h2
  refine ⟨M, h1, fun i j s t hi hj => ?_⟩
  have hrow : (trainRows U net (fun _ => 1) e x₀ (pre ++ b :: post))[pre.flatten.length + i]? =
      some (((b.length : ℝ) * 1) • compressedGrad U.comp (fun v => e s (net x₀ v s)) (U.net.W x₀)) := by
    unfold trainRows
    have hi' : i < b.length := by
      by_contra hc
      rw [List.getElem?_eq_none (by omega)] at hi
      cases hi
    rw [List.flatMap_append, List.flatMap_cons, List.getElem?_append_right (by simp [List.flatMap_def, List.length_flatten, Function.comp_def])]
    have hlen : ∀ l : List (List S), (l.flatMap fun b => b.map fun s => ((b.length : ℝ) * 1) • compressedGrad U.comp (fun v => e s (net x₀ v s)) (U.net.W x₀)).length =
        l.flatten.length := fun l => by simp [List.flatMap_def, List.length_flatten, Function.comp_def]
    rw [hlen, Nat.add_sub_cancel_left, List.getElem?_append_left (by simpa using hi'), List.getElem?_map, hi]
    rfl
  rw [h2.f _ j _ _ hrow hj, Finset.mul_sum]
  refine Finset.sum_congr rfl fun l _ => ?_
  rw [Finset.mul_sum]
  refine Finset.sum_congr rfl fun a _ => ?_
  simp only [Pi.smul_apply, smul_eq_mul, mul_one]
  ring

/-- **C185** (ignored labels). A test sample with the label -100 gets the gradient 0, and the gradients of the other samples of its batch are
multiplied by the size of the batch over the number of labels that are not -100. -/
theorem C185_ignored (U : Run κ S c din dout k₁ k₂ m) (net : κ → Weights din dout → S → Fin c → ℝ) (x₁ : κ) (pre post : List (List S)) (b : List S) (i : ℕ)
    (s : S) (hi : b[i]? = some s) :
    (testRows U net x₁ (pre ++ b :: post))[pre.flatten.length + i]? = some (if U.lab s = -100 then 0
      else ((b.length : ℝ) / (b.countP fun s => U.lab s ≠ -100 : ℕ)) • compressedGrad U.comp (fun v => labelLoss U.lab s (net x₁ v s)) (U.net.W x₁)) := by
  have hi' : i < b.length := by
    by_contra hc
    rw [List.getElem?_eq_none (by omega)] at hi
    cases hi
  unfold testRows
  rw [List.flatMap_append, List.flatMap_cons, List.getElem?_append_right (by simp [List.flatMap_def, List.length_flatten, Function.comp_def])]
  have hlen : ∀ l : List (List S), (l.flatMap fun b => b.map fun s => ((b.length : ℝ) / counted U.lab b) •
      compressedGrad U.comp (fun v => labelLoss U.lab s (net x₁ v s)) (U.net.W x₁)).length = l.flatten.length := fun l => by
    simp [List.flatMap_def, List.length_flatten, Function.comp_def]
  rw [hlen, Nat.add_sub_cancel_left, List.getElem?_append_left (by simpa using hi'), List.getElem?_map, hi]
  simp only [Option.map_some, Option.some.injEq]
  split_ifs with h
  · have : (fun v => labelLoss U.lab s (net x₁ v s)) = fun _ => (0 : ℝ) := by
      funext v
      unfold labelLoss BenchLoss.nll
      rw [dif_neg fun hc => hc.1 h]
    rw [this, compressedGrad_const, smul_zero]
  · rfl

/-- **C185** (models that return a loss). If the outputs have an attribute `loss`, test gradients are those of that loss, here `wt'` times the sum over the
samples; batches may then be dictionaries. -/
theorem C185_own_loss (U : Run κ S c din dout k₁ k₂ m) (net : κ → Weights din dout → S → Fin c → ℝ) (hN : Describes U.net net) (wt wt' : List S → ℝ)
    (e e' : S → (Fin c → ℝ) → ℝ) (hloss : ∀ b z, U.task.loss b z = wt b * ∑ k, e b[k] (z k)) (hform : U.form = .tuple 2 ∨ U.form = .dict) (f : BatchFn S c)
    (hret : U.returns = .withLoss f) (hf : ∀ b z, f b z = wt' b * ∑ k, e' b[k] (z k))
    (x₀ x₁ : κ) (spec spec' : Loader) (train test : List (List S)) (again : Data ℝ m) (hs : Served spec train) (hne : train ≠ [])
    (ht : test.flatten ≠ []) (hm : ∑ l, m l ≠ 0)
    (hd₀ : ∀ s ∈ train.flatten, ∀ l, DifferentiableAt ℝ (fun z => e s (U.net.out x₀ l s z)) (layerOut (U.net.W x₀ l) (U.net.inp x₀ l s)))
    (hd₁ : ∀ s ∈ test.flatten, ∀ l, DifferentiableAt ℝ (fun z => e' s (U.net.out x₁ l s z)) (layerOut (U.net.W x₁ l) (U.net.inp x₁ l s)))
    (hinv : U.hess = .identity ∨ ∀ l, Active l (trainRows U net wt e x₀ train) →
      (damped (U.damping.getD (1 / 100000)) l (trainRows U net wt e x₀ train)).det ≠ 0) :
    ∃ M, U.scores x₀ x₁ spec spec' train test again = .ok M ∧
      Scores M ((trainRows U net wt e x₀ train).map (preconditioned U.hess (U.damping.getD (1 / 100000)) (trainRows U net wt e x₀ train)))
        (trainRows U net wt' e' x₁ test) := by
  have hR := train_eq U net hN wt e hloss x₀ train hd₀
  have hT : testBatches U.net U.comp U.form U.returns U.lab x₁ test = .ok (test.map fun b => b.map fun s =>
      ((b.length : ℝ) * wt' b) • compressedGrad U.comp (fun v => e' s (net x₁ v s)) (U.net.W x₁)) := by
    refine mapM_ok_of _ _ _ fun b hb => ?_
    have hl : testLoss U.form U.returns U.lab b = .ok (f b) := by
      rw [hret]
      rcases hform with h | h <;> rw [h] <;> simp [testLoss]
    rw [hl]
    simp only [Except.map]
    rw [batchRows_weighted U.net U.comp net hN x₁ b _ (fun _ => wt' b) e' (fun z => by rw [hf, Finset.mul_sum]) fun s hsb =>
      hd₁ s (List.mem_flatten.2 ⟨b, hb, hsb⟩)]
  have := run_eq U x₀ x₁ spec spec' train test again hs hne ht hm hR hT (by simp [List.length_flatten, Function.comp_def]) (by
    simpa only [trainRows, List.flatMap_def] using hinv)
  simpa only [trainRows, List.flatMap_def] using this

theorem mapM_error {α β : Type} (f : α → Except Err β) (pre post : List α) (a : α) (e : Err) (h : ∀ x ∈ pre, ∃ y, f x = .ok y) (ha : f a = .error e) :
    (pre ++ a :: post).mapM f = .error e := by
  induction pre with
  | nil =>
    rw [List.nil_append, List.mapM_cons, ha]
    rfl
  | cons x l ih =>
    obtain ⟨y, hy⟩ := h x (by simp)
    rw [List.cons_append, List.mapM_cons, hy, ih fun z hz => h z (List.mem_cons_of_mem _ hz)]
    rfl

/-- **C185** (test batches that raise). Attribution of a non-empty test loader after a successful caching raises `ValueError` if its batches are
dictionaries and the model returns no loss, or if they are not pairs; `IndexError` at the first batch with a label that is neither a class nor -100. -/
theorem C185_errors (U : Run κ S c din dout k₁ k₂ m) (x₀ x₁ : κ) (spec spec' : Loader) (train test : List (List S)) (again : Data ℝ m)
    (hc : (cache U.hess U.damping (St.new ℝ m none) ⟨spec, trainBatches U.net U.comp U.task x₀ train⟩).2 = .ok ()) (ht : test ≠ []) :
    (U.form = .dict → U.returns = .plain → U.scores x₀ x₁ spec spec' train test again = .error .valueError) ∧
    (∀ n, U.form = .tuple n → n ≠ 2 → U.scores x₀ x₁ spec spec' train test again = .error .valueError) ∧
    (U.form = .tuple 2 → U.returns = .plain → (∃ b ∈ test, ∃ s ∈ b, ¬ BenchLoss.Valid (-100) c (U.lab s)) →
      U.scores x₀ x₁ spec spec' train test again = .error .indexError) := by
  have key : ∀ e, testBatches U.net U.comp U.form U.returns U.lab x₁ test = .error e → U.scores x₀ x₁ spec spec' train test again = .error e := by
    intro e he
    unfold Run.scores
    rcases hcc : cache U.hess U.damping (St.new ℝ m none) ⟨spec, trainBatches U.net U.comp U.task x₀ train⟩ with ⟨st, r⟩
    rw [hcc] at hc
    simp only at hc
    subst hc
    simp only [he]
  obtain ⟨b₀, rest, rfl⟩ : ∃ b rest, test = b :: rest := by
    cases test with
    | nil => exact absurd rfl ht
    | cons b r => exact ⟨b, r, rfl⟩
  refine ⟨fun h1 h2 => key _ ?_, fun n h1 h2 => key _ ?_, fun h1 h2 h3 => key _ ?_⟩
  · exact mapM_error _ [] rest b₀ _ (by simp) (by rw [h1, h2]; rfl)
  · refine mapM_error _ [] rest b₀ _ (by simp) ?_
    rw [h1]
    cases U.returns <;> simp [testLoss, h2, Except.map]
  · classical
    have hval : ∀ b : List S, (b.all fun s => U.lab s == -100 || (0 ≤ U.lab s && U.lab s < c)) = true ↔ ∀ s ∈ b, BenchLoss.Valid (-100) c (U.lab s) := by
      intro b
      simp [BenchLoss.Valid]
    have hstep : ∀ b : List S, (testLoss U.form U.returns U.lab b).map (fun F => batchRows U.net U.comp x₁ b F) =
        if ∀ s ∈ b, BenchLoss.Valid (-100) c (U.lab s) then .ok (batchRows U.net U.comp x₁ b (meanCE U.lab b)) else .error .indexError := by
      intro b
      rw [h1, h2]
      simp only [testLoss, ne_eq, not_true_eq_false, if_false]
      by_cases hv : ∀ s ∈ b, BenchLoss.Valid (-100) c (U.lab s)
      · rw [if_pos ((hval b).2 hv), if_pos hv]
        rfl
      · rw [if_neg (fun h => hv ((hval b).1 h)), if_neg hv]
        rfl
    unfold testBatches
    simp only [hstep]
    generalize b₀ :: rest = l at h3
    induction l with
    | nil => simp at h3
    | cons b l ih =>
      rw [List.mapM_cons]
      by_cases hv : ∀ s ∈ b, BenchLoss.Valid (-100) c (U.lab s)
      · rw [if_pos hv, ih]
        · rfl
        · obtain ⟨b', hb', s, hs, hns⟩ := h3
          rcases List.mem_cons.1 hb' with rfl | h
          · exact absurd (hv s hs) hns
          · exact ⟨b', h, s, hs, hns⟩
      · rw [if_neg hv]
        rfl

/-! ### A concrete case -/

theorem labelLoss_grad (lab : S → ℤ) (s : S) (y : Fin c) (hy : lab s = (y : ℕ)) (z : Fin c → ℝ) (i : Fin c) :
    Attr.gradAt (labelLoss lab s) z i = Real.exp (z i) / (∑ u, Real.exp (z u)) - if i = y then 1 else 0 := by
  have hne : ∀ y' : Fin c → ℝ, (∑ u, Real.exp (y' u)) ≠ 0 := fun y' =>
    (Finset.sum_pos (fun _ _ => Real.exp_pos _) ⟨y, Finset.mem_univ _⟩).ne'
  have hv : lab s ≠ -100 ∧ 0 ≤ lab s ∧ lab s < c := by
    have := y.isLt
    omega
  have e : labelLoss (c := c) lab s = fun y' => Real.log (∑ u, Real.exp (y' u)) - y' y := by
    funext y'
    unfold labelLoss BenchLoss.nll
    rw [dif_pos hv, Real.log_div (Real.exp_pos _).ne' (hne y'), Real.log_exp]
    have : (⟨(lab s).toNat, by omega⟩ : Fin c) = y := by
      apply Fin.ext
      simp [hy]
    rw [this]
    ring
  have h1 : HasFDerivAt (fun y' : Fin c → ℝ => ∑ u, Real.exp (y' u)) (∑ u, Real.exp (z u) • (ContinuousLinearMap.proj u : (Fin c → ℝ) →L[ℝ] ℝ)) z :=
    HasFDerivAt.fun_sum fun u _ => (ContinuousLinearMap.proj (R := ℝ) (φ := fun _ : Fin c => ℝ) u).hasFDerivAt.exp
  have h2 := (h1.log (hne z)).sub (ContinuousLinearMap.proj (R := ℝ) (φ := fun _ : Fin c => ℝ) y).hasFDerivAt (x := z)
  unfold Attr.gradAt
  rw [e]
  have h3 : fderiv ℝ (fun y' : Fin c → ℝ => Real.log (∑ u, Real.exp (y' u)) - y' y) z = _ := h2.fderiv
  rw [h3]
  simp only [_root_.sub_apply, _root_.smul_apply, _root_.sum_apply, ContinuousLinearMap.proj_apply, smul_eq_mul,
    Pi.single_apply, mul_ite, mul_one, mul_zero, Finset.sum_ite_eq', Finset.mem_univ, if_true, eq_comm (a := y)]
  rw [inv_mul_eq_div]

/-- One linear layer with one input and two outputs, weights 0, every input 1; the compressor keeps the whole gradient. The task's loss is the first
output, its target function is constant. -/
noncomputable def exTaskRun : Run Unit ℤ 2 (fun _ : Fin 1 => 1) (fun _ => 2) (fun _ => 2) (fun _ => 1) (fun _ => 2) where
  net := ⟨fun _ _ _ _ => 0, fun _ _ _ _ => 1, fun _ _ _ z => z⟩
  comp := ⟨fun _ => 1, fun _ => 1, fun _ a p => if p.1 = a then 1 else 0⟩
  task := ⟨fun b z => (∑ k, z k 0) / b.length, fun _ _ => 0⟩
  form := .tuple 2
  returns := .plain
  lab := id
  hess := .identity
  damping := none

/-- The network of `exTaskRun`. -/
def exTaskNet : Unit → Weights (fun _ : Fin 1 => 1) (fun _ => 2) → ℤ → Fin 2 → ℝ := fun _ w _ => layerOut (w 0) fun _ => 1

theorem exTask_describes : Describes exTaskRun.net exTaskNet := by
  intro x l s V
  have : l = 0 := Subsingleton.elim _ _
  subst this
  simp [exTaskNet, exTaskRun]

theorem exTask_grad (T : Weights (fun _ : Fin 1 => 1) (fun _ : Fin 1 => 2) → ℝ) (r : (Fin 2 → ℝ) → ℝ) (hT : T = fun v => r (exTaskNet () v 0))
    (hr : DifferentiableAt ℝ r (fun _ => 0)) (a : Fin 2) : compressedGrad exTaskRun.comp T (exTaskRun.net.W ()) 0 a = Attr.gradAt r (fun _ => 0) a := by
  have hz : layerOut (exTaskRun.net.W () 0) (fun _ => 1) = fun _ => (0 : ℝ) := by
    funext i
    simp [layerOut, exTaskRun]
  have hb : blockGrad T (exTaskRun.net.W ()) 0 = vecMulVec (Attr.gradAt r (fun _ => 0)) (fun _ => 1) := by
    unfold blockGrad
    rw [hT]
    have := weightGrad_layer r (fun _ : Fin 1 => 1) (exTaskRun.net.W () 0) (by rw [hz]; exact hr)
    rw [hz] at this
    rw [← this]
    simp only [exTaskNet, Function.update_self]
  simp only [compressedGrad, hb]
  simp [exTaskRun, Fintype.sum_prod_type, vecMulVec_apply]

/-- **C185** (the target function). There is a task whose target function is constant, so that its gradients are 0, and for which the score of a training and a
test sample is -1/2. -/
theorem C185_target : ∃ M, exTaskRun.scores () () ⟨1, 1, 1, false, true⟩ ⟨1, 1, 1, false, true⟩ [[0]] [[0]] ⟨⟨1, 1, 1, false, true⟩, []⟩ = .ok M ∧ M.f 0 0 = -1 / 2 ∧
    (∀ b z, exTaskRun.task.target b z = 0) := by
  have hproj : DifferentiableAt ℝ (fun z : Fin 2 → ℝ => z 0) (fun _ => 0) := differentiableAt_apply _ _
  obtain ⟨M, h1, -, -, h4⟩ := C185_entries exTaskRun exTaskNet exTask_describes (fun _ z => z 0) (fun b z => rfl) rfl rfl rfl () () ⟨1, 1, 1, false, true⟩
    ⟨1, 1, 1, false, true⟩ [[0]] [[0]] ⟨⟨1, 1, 1, false, true⟩, []⟩
    ⟨⟨by decide, rfl, rfl⟩, rfl, by
      intro k b hb
      rcases k with _ | k
      · simp only [List.getElem?_cons_zero, Option.some.injEq] at hb
        subst hb
        rfl
      · simp at hb⟩ (by simp) (by simp) (by simp) (by simp [exTaskRun])
    (fun s _ l => differentiableAt_apply _ _) (fun s _ l => differentiableAt_id)
  refine ⟨M, h1, ?_, fun _ _ => rfl⟩
  rw [h4 0 0 0 0 rfl rfl, Fin.sum_univ_one]
  have g1 : ∀ a, compressedGrad exTaskRun.comp (fun v => exTaskNet () v 0 0) (exTaskRun.net.W ()) 0 a = if a = 0 then 1 else 0 := by
    intro a
    rw [exTask_grad _ (fun z => z 0) rfl hproj]
    unfold Attr.gradAt
    have : fderiv ℝ (fun z : Fin 2 → ℝ => z 0) (fun _ => 0) = ContinuousLinearMap.proj 0 :=
      (ContinuousLinearMap.proj (R := ℝ) (φ := fun _ : Fin 2 => ℝ) 0).hasFDerivAt.fderiv
    rw [this]
    simp [Pi.single_apply, eq_comm]
  have g2 : compressedGrad exTaskRun.comp (fun v => labelLoss exTaskRun.lab 0 (exTaskNet () v 0)) (exTaskRun.net.W ()) 0 0 = -1 / 2 := by
    rw [exTask_grad _ (labelLoss exTaskRun.lab 0) rfl (labelLoss_differentiable _ _ _), labelLoss_grad exTaskRun.lab 0 0 rfl]
    simp
    norm_num
  change ∑ a : Fin 2, _ = _
  rw [Fin.sum_univ_two, g1, g1, g2]
  simp

example : held true [2] [] [1] = (some 0, some 1) := (C185_checkpoint [2] [] [1]).1

end Verif.BlockIF
