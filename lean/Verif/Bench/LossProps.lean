import Verif.Bench.LossModel
import Verif.Bench.MusicNetProps
import Verif.Metric.RetrainProps
import Mathlib.Tactic.FieldSimp
import Mathlib.Tactic.Ring
import Mathlib.Tactic.Linarith
import Mathlib.Tactic.Positivity

/-! # C149, C150, C151: the loss functions of the benchmarks -/

namespace Verif.BenchLoss

open Verif

variable {n h₁ h₂ c : ℕ} {X P S : Type}

/-! ### Specification -/

/-- Minus the log-probability of the label under the softmax of the scores; an ignored label counts 0. -/
noncomputable def nll (ign : ℤ) (z : Fin c → ℝ) (y : ℤ) : ℝ :=
  if h : y ≠ ign ∧ 0 ≤ y ∧ y < c then -Real.log (Real.exp (z ⟨y.toNat, by omega⟩) / ∑ u, Real.exp (z u)) else 0

/-- A label that is a class or the ignored one. -/
def Valid (ign : ℤ) (c : ℕ) (y : ℤ) : Prop := y = ign ∨ (0 ≤ y ∧ y < c)

/-! ### Helper lemmas -/

theorem ceOne_iff (ign : ℤ) (z : Fin c → ℝ) (y : ℤ) (r : ℝ) : ceOne ign z y = .ok r ↔ Valid ign c y ∧ r = nll ign z y := by
  unfold ceOne Valid nll
  by_cases h1 : y = ign
  · simp [h1, eq_comm]
  · by_cases h2 : 0 ≤ y ∧ y < c
    · have hp : 0 < ∑ u, Real.exp (z u) := by
        have : (Finset.univ : Finset (Fin c)).Nonempty := ⟨⟨y.toNat, by omega⟩, Finset.mem_univ _⟩
        exact Finset.sum_pos (fun _ _ => Real.exp_pos _) this
      simp only [h1, h2, if_false, dif_pos, and_self, or_true, true_and, ne_eq, not_false_eq_true, Except.ok.injEq]
      rw [Real.log_div (Real.exp_pos _).ne' hp.ne', Real.log_exp, LogReg.logSoftmax]
      exact eq_comm
    · simp [h1, h2]

theorem forall₂_congr_mem {α β : Type} {R R' : α → β → Prop} (l : List α) (r : List β) (h : ∀ a ∈ l, ∀ b, R a b ↔ R' a b) :
    List.Forall₂ R l r ↔ List.Forall₂ R' l r := by
  induction l generalizing r with
  | nil => simp
  | cons a l ih =>
    rw [List.forall₂_cons_left_iff, List.forall₂_cons_left_iff]
    simp only [h a (by simp), ih _ fun x hx => h x (List.mem_cons_of_mem _ hx)]

theorem forall₂_val {α β : Type} (G : α → Prop) (val : α → β) (l : List α) (r : List β) :
    List.Forall₂ (fun a b => G a ∧ b = val a) l r ↔ (∀ a ∈ l, G a) ∧ r = l.map val := by
  induction l generalizing r with
  | nil => simp
  | cons a l ih =>
    rw [List.forall₂_cons_left_iff]
    constructor
    · rintro ⟨b, u, ⟨h1, h2⟩, h3, rfl⟩
      obtain ⟨h4, h5⟩ := (ih u).1 h3
      refine ⟨?_, by simp [h2, h5]⟩
      intro x hx
      rcases List.mem_cons.1 hx with rfl | hx
      · exact h1
      · exact h4 x hx
    · rintro ⟨h1, h2⟩
      exact ⟨val a, l.map val, ⟨h1 a (by simp), rfl⟩, (ih _).2 ⟨fun x hx => h1 x (List.mem_cons_of_mem _ hx), rfl⟩, by simpa using h2⟩

/-- Scores that are computed example by example: the criterion on the batch. -/
theorem ceNone_iff {α : Type} (ign : ℤ) (f : α → Fin c → ℝ) (lab : α → ℤ) (b : List α) (r : List ℝ) :
    ceNone ign (b.map f) (b.map lab) = .ok r ↔ (∀ s ∈ b, Valid ign c (lab s)) ∧ r = b.map fun s => nll ign (f s) (lab s) := by
  unfold ceNone
  rw [if_neg (by simp), Retrain.mapM_ok_iff]
  have : (b.map f).zip (b.map lab) = b.map fun s => (f s, lab s) := by
    induction b with
    | nil => rfl
    | cons a b ih => simp [ih]
  rw [this, List.forall₂_map_left_iff]
  simp only [ceOne_iff]
  exact forall₂_val (fun s => Valid ign c (lab s)) (fun s => nll ign (f s) (lab s)) b r

/-- The loop over the batches when every batch is evaluated example by example. -/
theorem loop_iff {α : Type} (step : List α → Except Err (List ℝ)) (G : α → Prop) (val : α → ℝ) (loader : List (List α))
    (hs : ∀ b ∈ loader, ∀ l, step b = .ok l ↔ (∀ s ∈ b, G s) ∧ l = b.map val) (r : List ℝ) :
    ((loader.mapM step >>= fun l => if l = [] then Except.error Err.runtimeError else pure l.flatten) = .ok r) ↔
      loader ≠ [] ∧ (∀ s ∈ loader.flatten, G s) ∧ r = loader.flatten.map val := by
  have key : ∀ l, loader.mapM step = .ok l ↔ (∀ b ∈ loader, ∀ s ∈ b, G s) ∧ l = loader.map fun b => b.map val := by
    intro l
    rw [Retrain.mapM_ok_iff]
    rw [forall₂_congr_mem (R' := fun b u => (∀ s ∈ b, G s) ∧ u = b.map val) loader l hs]
    exact forall₂_val (fun b => ∀ s ∈ b, G s) (fun b => b.map val) loader l
  cases hm : loader.mapM step with
  | error e =>
    simp only [bind, Except.bind, reduceCtorEq, false_iff]
    rintro ⟨-, h2, -⟩
    have := (key (loader.map fun b => b.map val)).2 ⟨fun b hb s hs' => h2 s (List.mem_flatten.2 ⟨b, hb, hs'⟩), rfl⟩
    rw [hm] at this
    cases this
  | ok l =>
    obtain ⟨h1, h2⟩ := (key l).1 hm
    have hl : l = [] ↔ loader = [] := by rw [h2]; simp
    simp only [bind, Except.bind]
    by_cases hn : loader = []
    · rw [if_pos (hl.2 hn)]
      simp [hn]
    · rw [if_neg (fun h => hn (hl.1 h))]
      simp only [pure, Except.pure, Except.ok.injEq, ne_eq, hn, not_false_eq_true, true_and]
      rw [h2, List.map_flatten]
      constructor
      · intro h
        exact ⟨fun s hs' => by obtain ⟨b, hb, hs''⟩ := List.mem_flatten.1 hs'; exact h1 b hb s hs'', h.symm⟩
      · rintro ⟨-, h⟩
        exact h.symm

theorem viewRows_flatten (n : ℕ) (hn : 0 < n) (imgs : List (List ℝ)) (h : ∀ x ∈ imgs, x.length = n) :
    viewRows n imgs.flatten = .ok (imgs.map (vec n)) := by
  have hl : imgs.flatten.length = imgs.length * n := by
    induction imgs with
    | nil => simp
    | cons x l ih =>
      rw [List.flatten_cons, List.length_append, ih fun y hy => h y (List.mem_cons_of_mem _ hy), h x (by simp), List.length_cons]
      ring
  unfold viewRows
  rw [hl, if_neg (by simp), Nat.mul_div_cancel _ hn]
  congr 1
  clear hl
  induction imgs with
  | nil => rfl
  | cons x l ih =>
    have hx := h x (by simp)
    rw [List.length_cons, List.range_succ_eq_map, List.map_cons, List.map_map, List.map_cons, ← ih fun y hy => h y (List.mem_cons_of_mem _ hy)]
    congr 1
    · funext j
      simp only [vec, List.flatten_cons, Nat.zero_mul, Nat.zero_add]
      rw [List.getD_eq_getElem?_getD, List.getD_eq_getElem?_getD, List.getElem?_append_left (by omega)]
    · refine List.map_congr_left fun i _ => ?_
      funext j
      simp only [Function.comp_apply, List.flatten_cons]
      have e : Nat.succ i * n + (j : ℕ) = x.length + (i * n + j) := by
        rw [hx, Nat.succ_mul]
        omega
      rw [List.getD_eq_getElem?_getD, List.getD_eq_getElem?_getD, e, List.getElem?_append_right (by omega), Nat.add_sub_cancel_left]

theorem flatten_length_const (s : ℕ) (imgs : List (List ℝ)) (h : ∀ x ∈ imgs, x.length = s) : imgs.flatten.length = imgs.length * s := by
  induction imgs with
  | nil => simp
  | cons x l ih =>
    rw [List.flatten_cons, List.length_append, ih fun y hy => h y (List.mem_cons_of_mem _ hy), h x (by simp), List.length_cons]
    ring

/-! ### C149 -/

lemma lr_loss_iff (θ : Fin (c * n + c) → ℝ) (loader : List (List (List ℝ × ℤ))) (r : List ℝ) :
    perExample (lrForward θ) loader = .ok r ↔ loader ≠ [] ∧ (∀ s ∈ loader.flatten, s.1.length = n ∧ Valid (-100) c s.2) ∧
      r = loader.flatten.map fun s => nll (-100) (LogReg.logits θ (vec n s.1)) s.2 := by
  refine loop_iff _ (fun s : List ℝ × ℤ => s.1.length = n ∧ Valid (-100) c s.2) (fun s => nll (-100) (LogReg.logits θ (vec n s.1)) s.2) loader
    (fun b _ l => ?_) r
  unfold lrForward
  by_cases h : ∀ x ∈ b.map Prod.fst, x.length = n
  · rw [if_pos h]
    simp only [bind, Except.bind, List.map_map, Function.comp_def]
    rw [ceNone_iff (-100) (fun s : List ℝ × ℤ => LogReg.logits θ (vec n s.1)) Prod.snd b l]
    have h' : ∀ s ∈ b, s.1.length = n := fun s hs => h s.1 (List.mem_map.2 ⟨s, hs, rfl⟩)
    constructor
    · rintro ⟨h1, h2⟩
      exact ⟨fun s hs => ⟨h' s hs, h1 s hs⟩, h2⟩
    · rintro ⟨h1, h2⟩
      exact ⟨fun s hs => (h1 s hs).2, h2⟩
  · rw [if_neg h]
    simp only [bind, Except.bind, reduceCtorEq, false_iff]
    rintro ⟨h1, -⟩
    refine h fun x hx => ?_
    obtain ⟨s, hs, rfl⟩ := List.mem_map.1 hx
    exact (h1 s hs).1

/-- Specification: the scores of logistic regression; entry `(k, j)` of the weight matrix is parameter number `k * n + j`, and the bias follows. -/
noncomputable def lrScores (θ : Fin (c * n + c) → ℝ) (x : Fin n → ℝ) (k : Fin c) : ℝ :=
  ∑ j : Fin n, θ ⟨k * n + j, by
    have h : (k : ℕ) * n + n ≤ c * n := by rw [← Nat.succ_mul]; exact Nat.mul_le_mul_right _ k.isLt
    have := j.isLt
    omega⟩ * x j + θ ⟨c * n + k, by have := k.isLt; omega⟩

/-- **C149** (logistic regression). `loss_mnist_lr` returns a result exactly when there is a batch, all images have the right size and every label is a class
or -100; the result then has one entry per example, in the loader's order, minus the log-probability the network gives to the label. -/
theorem C149_logistic (θ : Fin (c * n + c) → ℝ) (loader : List (List (List ℝ × ℤ))) (r : List ℝ) :
    perExample (lrForward θ) loader = .ok r ↔ loader ≠ [] ∧ (∀ s ∈ loader.flatten, s.1.length = n ∧ Valid (-100) c s.2) ∧
      r = loader.flatten.map fun s => nll (-100) (lrScores θ (vec n s.1)) s.2 := by
  have h : ∀ x : Fin n → ℝ, lrScores θ x = LogReg.logits θ x := by
    intro x
    funext k
    unfold lrScores LogReg.logits
    congr 1
    refine Finset.sum_congr rfl fun j _ => ?_
    congr 2
    apply Fin.ext
    simp [finProdFinEquiv, Nat.mul_comm]
    omega
  simp only [h]
  exact lr_loss_iff θ loader r

lemma mlp_loss_iff (hn : 0 < n) (N : MLP n h₁ h₂ c) (loader : List (List (List ℝ × ℤ))) (hne : ∀ b ∈ loader, b ≠ []) (r : List ℝ) :
    perExample N.forward loader = .ok r ↔ loader ≠ [] ∧ (∀ s ∈ loader.flatten, s.1.length = n ∧ Valid (-100) c s.2) ∧
      r = loader.flatten.map fun s => nll (-100) (N.row (vec n s.1)) s.2 := by
  refine loop_iff _ (fun s : List ℝ × ℤ => s.1.length = n ∧ Valid (-100) c s.2) (fun s => nll (-100) (N.row (vec n s.1)) s.2) loader
    (fun b hb l => ?_) r
  have hb := hne b hb
  by_cases h : ∀ x ∈ b.map Prod.fst, x.length = n
  · have hf : N.forward (b.map Prod.fst) = .ok (b.map fun s => N.row (vec n s.1)) := by
      unfold MLP.forward
      rw [if_neg (by push Not; intro x hx y hy; rw [h x hx, h y hy]), viewRows_flatten n hn _ h]
      simp [Except.map, Function.comp_def]
    rw [hf]
    simp only [bind, Except.bind]
    rw [ceNone_iff (-100) (fun s : List ℝ × ℤ => N.row (vec n s.1)) Prod.snd b l]
    have h' : ∀ s ∈ b, s.1.length = n := fun s hs => h s.1 (List.mem_map.2 ⟨s, hs, rfl⟩)
    constructor
    · rintro ⟨h1, h2⟩
      exact ⟨fun s hs => ⟨h' s hs, h1 s hs⟩, h2⟩
    · rintro ⟨h1, h2⟩
      exact ⟨fun s hs => (h1 s hs).2, h2⟩
  · have hbad : ¬ ((∀ s ∈ b, s.1.length = n ∧ Valid (-100) c s.2) ∧ l = b.map fun s => nll (-100) (N.row (vec n s.1)) s.2) := by
      rintro ⟨h1, -⟩
      refine h fun x hx => ?_
      obtain ⟨s, hs, rfl⟩ := List.mem_map.1 hx
      exact (h1 s hs).1
    refine iff_of_false ?_ hbad
    intro he
    unfold MLP.forward at he
    split_ifs at he with hr
    · cases he
    · push Not at hr
      unfold viewRows at he
      split_ifs at he with hv
      · cases he
      · simp only [Except.map, bind, Except.bind] at he
        unfold ceNone at he
        split_ifs at he with hlen
        rw [List.length_map, List.length_map, List.length_range, List.length_map] at hlen
        push Not at hlen
        obtain ⟨s, b', rfl⟩ := List.exists_cons_of_ne_nil hb
        have hconst := flatten_length_const s.1.length ((s :: b').map Prod.fst) fun x hx => hr x hx s.1 (by simp)
        rw [hconst] at hlen hv
        push Not at hv
        have h3 : (s :: b').length * s.1.length = (s :: b').length * n := by
          have := Nat.div_add_mod (((s :: b').map Prod.fst).length * s.1.length) n
          rw [hlen, hv, List.length_map] at this
          rw [← this, Nat.add_zero, Nat.mul_comm]
        have h4 : s.1.length = n := Nat.eq_of_mul_eq_mul_left (by simp) h3
        exact h fun x hx => by rw [hr x hx s.1 (by simp), h4]

/-- Specification: the network of the benchmark, two hidden layers with the positive part and a linear output. -/
noncomputable def mlpScores (N : MLP n h₁ h₂ c) (x : Fin n → ℝ) (k : Fin c) : ℝ :=
  ∑ j, N.w₃ k j * max 0 (∑ l, N.w₂ j l * max 0 (∑ i, N.w₁ l i * x i + N.b₁ l) + N.b₂ j) + N.b₃ k

/-- **C149** (multi-layer perceptron). The same for `loss_mnist_mlp`, with the scores of a network with two hidden layers. Although `view(-1, 28*28)` regroups the pixels
of images of any size, a result is only returned for images of the right size. -/
theorem C149_mlp (hn : 0 < n) (N : MLP n h₁ h₂ c) (loader : List (List (List ℝ × ℤ))) (hne : ∀ b ∈ loader, b ≠ []) (r : List ℝ) :
    perExample N.forward loader = .ok r ↔ loader ≠ [] ∧ (∀ s ∈ loader.flatten, s.1.length = n ∧ Valid (-100) c s.2) ∧
      r = loader.flatten.map fun s => nll (-100) (mlpScores N (vec n s.1)) s.2 := by
  have h : ∀ x : Fin n → ℝ, mlpScores N x = N.row x := by
    intro x
    funext k
    simp [mlpScores, MLP.row, relu, Matrix.mulVec, dotProduct, max_comm]
  simp only [h]
  exact mlp_loss_iff hn N loader hne r

/-- **C149** (batches). The result does not depend on how the examples are put into batches. -/
theorem C149_batching (hn : 0 < n) (θ : Fin (c * n + c) → ℝ) (N : MLP n h₁ h₂ c) (l₁ l₂ : List (List (List ℝ × ℤ)))
    (hl₁ : ∀ b ∈ l₁, b ≠ []) (hl₂ : ∀ b ∈ l₂, b ≠ []) (h : l₁.flatten = l₂.flatten) (r : List ℝ) :
    (perExample (lrForward θ) l₁ = .ok r ↔ perExample (lrForward θ) l₂ = .ok r) ∧
    (perExample N.forward l₁ = .ok r ↔ perExample N.forward l₂ = .ok r) := by
  have hnil : l₁ ≠ [] ↔ l₂ ≠ [] := by
    have : ∀ l : List (List (List ℝ × ℤ)), (∀ b ∈ l, b ≠ []) → (l = [] ↔ l.flatten = []) := by
      intro l hl
      rw [List.flatten_eq_nil_iff]
      constructor
      · rintro rfl
        simp
      · intro h
        by_contra hn
        obtain ⟨b, l', rfl⟩ := List.exists_cons_of_ne_nil hn
        exact hl b (by simp) (h b (by simp))
    rw [ne_eq, ne_eq, this l₁ hl₁, this l₂ hl₂, h]
  rw [C149_logistic, C149_logistic, C149_mlp hn N l₁ hl₁, C149_mlp hn N l₂ hl₂, h, hnil]
  exact ⟨Iff.rfl, Iff.rfl⟩

/-- Two batches, one ignored label. -/
example (θ : Fin (2 * 1 + 2) → ℝ) : ∃ r, perExample (lrForward (n := 1) (c := 2) θ) [[([3], 0), ([4], -100)], [([5], 1)]] = .ok r ∧ r.length = 3 ∧
    r[1]? = some 0 := by
  refine ⟨_, (C149_logistic θ _ _).2 ⟨by simp, ?_, rfl⟩, by simp, ?_⟩
  · intro s hs
    simp only [List.flatten_cons, List.flatten_nil, List.append_nil, List.cons_append, List.nil_append, List.mem_cons, List.not_mem_nil, or_false] at hs
    rcases hs with rfl | rfl | rfl <;> simp [Valid]
  · simp [nll]

end Verif.BenchLoss
