import Verif.Bench.TrainProps
import Mathlib.Algebra.BigOperators.Intervals

/-!
# C166: what the benchmark trainings with momentum and weight decay compute
-/

namespace Verif.Train

open Verif Verif.Attr Matrix Finset

variable {p : ℕ} {X : Type}

/-! ### Specification -/

/-- The loss with an additional `λ/2` times the squared norm of the parameters. -/
noncomputable def ridge (wd : ℝ) (loss : (Fin p → ℝ) → List X → ℝ) : (Fin p → ℝ) → List X → ℝ :=
  fun t b => loss t b + wd / 2 * ∑ k, t k ^ 2

/-- `θ 0, θ 1, …` are parameters along steps of size `lr` with momentum `m` for the losses of the batches: the `t`-th step goes along the sum of all
gradients so far, where a gradient that is `j` steps old has the weight `m ^ j`. -/
def HeavyBall (lr m : ℝ) (loss : (Fin p → ℝ) → List X → ℝ) (bs : List (List X)) (θ : ℕ → Fin p → ℝ) : Prop :=
  ∀ t, ∀ ht : t < bs.length, θ (t + 1) = θ t - lr • ∑ s : Fin (t + 1), m ^ (t - s) •
    gradAt (fun u => loss u (bs[(s : ℕ)]'(lt_of_le_of_lt (Nat.lt_succ_iff.1 s.isLt) ht))) (θ s)

/-! ### Helper lemmas -/

lemma gradAt_ridge (wd : ℝ) (loss : (Fin p → ℝ) → List X → ℝ) (b : List X) (θ : Fin p → ℝ)
    (h : DifferentiableAt ℝ (fun t => loss t b) θ) :
    gradAt (fun t => ridge wd loss t b) θ = gradAt (fun t => loss t b) θ + wd • θ := by
  have h2 : HasFDerivAt (fun t : Fin p → ℝ => ∑ k, t k ^ 2) (∑ k, (2 * θ k) • ContinuousLinearMap.proj (R := ℝ) (φ := fun _ : Fin p => ℝ) k) θ := by
    have := HasFDerivAt.fun_sum (u := Finset.univ) (A := fun (k : Fin p) (t : Fin p → ℝ) => t k ^ 2)
      (A' := fun k => (2 * θ k) • ContinuousLinearMap.proj (R := ℝ) (φ := fun _ : Fin p => ℝ) k) (x := θ) (fun k _ => by
        have h0 : HasFDerivAt (fun t : Fin p → ℝ => t k) (ContinuousLinearMap.proj (R := ℝ) (φ := fun _ : Fin p => ℝ) k) θ :=
          (ContinuousLinearMap.proj (R := ℝ) (φ := fun _ : Fin p => ℝ) k).hasFDerivAt
        have h1 := h0.mul h0
        rw [← two_smul ℝ, smul_smul] at h1
        refine h1.congr_of_eventuallyEq (Filter.Eventually.of_forall fun t => ?_)
        simp [pow_two])
    exact this
  have h3 := h.hasFDerivAt.fun_add (h2.const_mul (wd / 2))
  funext k
  rw [gradAt, show (fun t => ridge wd loss t b) = fun t => loss t b + wd / 2 * ∑ k, t k ^ 2 from rfl, h3.fderiv]
  simp [gradAt, Pi.single_apply]
  ring

/-! ### C166 -/

/-- **C166.** Weight decay is a quadratic penalty: with any learning rate, momentum and batches the training with weight decay `wd` is the training
without it for the loss plus `wd/2` times the squared norm of the parameters. -/
theorem C166_weight_decay (lr m wd : ℝ) (loss : (Fin p → ℝ) → List X → ℝ) (hd : ∀ b, Differentiable ℝ fun t => loss t b)
    (epochs : List (List (List X))) (θ : Fin p → ℝ) :
    trainLoop ⟨lr, m, wd⟩ loss epochs θ = trainLoop ⟨lr, m, 0⟩ (ridge wd loss) epochs θ := by
  have hstep : ∀ (st : (Fin p → ℝ) × Option (Fin p → ℝ)) (b : List X),
      SGD.step ⟨lr, m, wd⟩ (gradAt (fun t => loss t b) st.1) st = SGD.step ⟨lr, m, 0⟩ (gradAt (fun t => ridge wd loss t b) st.1) st := by
    intro st b
    have hg := gradAt_ridge wd loss b st.1 (hd b st.1)
    have : (if wd ≠ 0 then gradAt (fun t => loss t b) st.1 + wd • st.1 else gradAt (fun t => loss t b) st.1) =
        gradAt (fun t => ridge wd loss t b) st.1 := by
      rw [hg]
      split_ifs with h
      · rfl
      · push Not at h
        simp [h]
    unfold SGD.step
    simp only [this, ne_eq, not_true_eq_false, if_false]
  unfold trainLoop
  simp only [hstep]

/-- **C166.** In particular `train_imagenet_resnet18` minimises the training loss with the penalty `2e-5` times the squared norm. -/
theorem C166_imagenet (loss : (Fin p → ℝ) → List X → ℝ) (hd : ∀ b, Differentiable ℝ fun t => loss t b) (init : ℕ → Fin p → ℝ)
    (loader : ℕ → List (List X)) (datasetLen seed epochNum : ℕ) (hlen : 0 < datasetLen) :
    trainImagenet loss init loader datasetLen seed epochNum =
      .ok (trainLoop ⟨1 / 10, 8 / 10, 0⟩ (fun t b => loss t b + 2 / 100000 * ∑ k, t k ^ 2) ((List.range epochNum).map loader) (init seed)) := by
  unfold trainImagenet
  rw [if_neg (by omega), C166_weight_decay _ _ _ loss hd]
  have : ridge (4 / 100000) loss = fun t b => loss t b + 2 / 100000 * ∑ k, t k ^ 2 := by
    funext t b
    simp only [ridge]
    norm_num
  rw [this]

/-- **C166.** The trained parameters are the last ones of the sequence that starts at the initial parameters and moves along the geometrically
weighted sum of the past gradients; the buffer is kept from one epoch to the next. -/
theorem C166_momentum (lr m : ℝ) (loss : (Fin p → ℝ) → List X → ℝ) (epochs : List (List (List X))) (θ₀ : Fin p → ℝ) :
    ∃ θ : ℕ → Fin p → ℝ, θ 0 = θ₀ ∧ HeavyBall lr m loss epochs.flatten θ ∧ trainLoop ⟨lr, m, 0⟩ loss epochs θ₀ = θ epochs.flatten.length := by
  classical
  let step := fun (st : (Fin p → ℝ) × Option (Fin p → ℝ)) (b : List X) => SGD.step ⟨lr, m, 0⟩ (gradAt (fun t => loss t b) st.1) st
  let run := fun t : ℕ => (epochs.flatten.take t).foldl step (θ₀, none)
  have hrun : ∀ t, ∀ ht : t < epochs.flatten.length, run (t + 1) = step (run t) epochs.flatten[t] := by
    intro t ht
    simp only [run]
    rw [List.take_succ_eq_append_getElem ht, List.foldl_append]
    rfl
  let g := fun s : ℕ => if h : s < epochs.flatten.length then gradAt (fun u => loss u epochs.flatten[s]) (run s).1 else 0
  have hg : ∀ t, ∀ ht : t < epochs.flatten.length, g t = gradAt (fun u => loss u epochs.flatten[t]) (run t).1 := by
    intro t ht
    simp only [g, dif_pos ht]
  have hbuf : m ≠ 0 → ∀ t, t ≤ epochs.flatten.length →
      (run t).2 = if t = 0 then none else some (∑ s ∈ range t, m ^ (t - 1 - s) • g s) := by
    intro hm t
    induction t with
    | zero => intro _; rfl
    | succ t ih =>
      intro ht
      rw [hrun t ht]
      have ih := ih (by omega)
      simp only [step, SGD.step, ne_eq, not_true_eq_false, if_false, if_pos hm]
      rw [← hg t ht, ih]
      by_cases h0 : t = 0
      · subst h0
        simp
      · rw [if_neg h0, if_neg (Nat.succ_ne_zero t), sum_range_succ]
        simp only
        congr 2
        · rw [Finset.smul_sum]
          refine Finset.sum_congr rfl fun s hs => ?_
          have hs' := mem_range.1 hs
          rw [smul_smul, ← pow_succ']
          congr 2
          omega
        · simp
  refine ⟨fun t => (run t).1, rfl, ?_, ?_⟩
  · intro t ht
    have hsum : (∑ s : Fin (t + 1), m ^ (t - s) • gradAt (fun u => loss u (epochs.flatten[(s : ℕ)]'(lt_of_le_of_lt
        (Nat.lt_succ_iff.1 s.isLt) ht))) (run s).1) = ∑ s ∈ range (t + 1), m ^ (t - s) • g s := by
      rw [Finset.sum_range]
      refine Finset.sum_congr rfl fun s _ => ?_
      rw [hg s (lt_of_le_of_lt (Nat.lt_succ_iff.1 s.isLt) ht)]
    simp only
    rw [hsum, hrun t ht]
    by_cases hm : m = 0
    · subst hm
      simp only [step, SGD.step, ne_eq, not_true_eq_false, if_false]
      rw [← hg t ht, sum_range_succ, Finset.sum_eq_zero, zero_add]
      · simp
      · intro s hs
        have := mem_range.1 hs
        rw [zero_pow (by omega), zero_smul]
    · have hb := hbuf hm (t + 1) ht
      rw [hrun t ht] at hb
      have hfst : (step (run t) epochs.flatten[t]).2 = some (∑ s ∈ range (t + 1), m ^ (t - s) • g s) := by
        rw [hb]; simp
      simp only [step, SGD.step, ne_eq, not_true_eq_false, if_false, if_pos hm] at hfst ⊢
      rw [Option.some_inj.1 hfst]
  · have : (epochs.flatten.take epochs.flatten.length) = epochs.flatten := List.take_length
    simp only [run, this]
    unfold trainLoop
    rw [List.foldl_flatten]

/-- **C166.** `train_mnist_mlp` and `train_cifar_resnet9` (with a non-empty loader) return the last of such a sequence of parameters, with step size 0.01 and
momentum 0.9, over the batches of all epochs in order. -/
theorem C166_mlp_cifar (loss : (Fin p → ℝ) → List X → ℝ) (init : ℕ → Fin p → ℝ) (loader : ℕ → List (List X)) (loaderLen seed epochNum : ℕ)
    (hlen : 0 < loaderLen) :
    ∃ θ : ℕ → Fin p → ℝ, θ 0 = init seed ∧ HeavyBall (1 / 100) (9 / 10) loss ((List.range epochNum).flatMap loader) θ ∧
      trainMnistMlp loss init loader seed epochNum = θ ((List.range epochNum).flatMap loader).length ∧
      trainCifar loss init loader loaderLen seed epochNum = .ok (θ ((List.range epochNum).flatMap loader).length) := by
  obtain ⟨θ, h0, hb, he⟩ := C166_momentum (1 / 100) (9 / 10) loss ((List.range epochNum).map loader) (init seed)
  rw [← List.flatMap_def] at hb he
  refine ⟨θ, h0, hb, he, ?_⟩
  unfold trainCifar
  rw [if_neg (by omega), he]

/-- A concrete case for weight decay: one step with weight decay 3 from the parameter 2 on a loss that does not depend on the parameter. -/
example : trainLoop ⟨1 / 10, 0, 3⟩ (fun (_ : Fin 1 → ℝ) (_ : List ℕ) => (7 : ℝ)) [[[1]]] (fun _ => 2) = fun _ => 14 / 10 := by
  have h := C166_weight_decay (1 / 10) 0 3 (fun (_ : Fin 1 → ℝ) (_ : List ℕ) => (7 : ℝ)) (fun _ => differentiable_const _) [[[1]]] (fun _ => 2)
  rw [h]
  simp only [trainLoop, List.foldl_cons, List.foldl_nil, SGD.step, ne_eq, not_true_eq_false, if_false]
  rw [gradAt_ridge _ _ _ _ (differentiable_const _ _), gradAt_const]
  funext k
  simp
  norm_num

/-- A concrete case: two steps with momentum 1/2 and a loss with the constant gradient 1. -/
example : ∃ θ : ℕ → Fin 1 → ℝ, θ 0 = 0 ∧ HeavyBall 1 (1 / 2) (fun t (_ : List ℕ) => t 0) [[1], [2]] θ ∧
    trainLoop ⟨1, 1 / 2, 0⟩ (fun t (_ : List ℕ) => t 0) [[[1]], [[2]]] 0 = θ 2 ∧ θ 2 0 = -5 / 2 := by
  obtain ⟨θ, h0, hb, he⟩ := C166_momentum 1 (1 / 2) (fun t (_ : List ℕ) => t (0 : Fin 1)) [[[1]], [[2]]] 0
  have hg : ∀ x : Fin 1 → ℝ, gradAt (fun t : Fin 1 → ℝ => t 0) x = 1 := by
    intro x
    funext k
    have h0 : HasFDerivAt (fun t : Fin 1 → ℝ => t 0) (ContinuousLinearMap.proj (R := ℝ) (φ := fun _ : Fin 1 => ℝ) 0) x :=
      (ContinuousLinearMap.proj (R := ℝ) (φ := fun _ : Fin 1 => ℝ) 0).hasFDerivAt
    rw [gradAt, h0.fderiv]
    fin_cases k
    simp
  have h1 := hb 0 (by simp)
  have h2 := hb 1 (by simp)
  simp only [hg] at h1 h2
  refine ⟨θ, h0, hb, he, ?_⟩
  rw [h2, h1, h0]
  simp [Fin.sum_univ_two]
  norm_num

end Verif.Train
