import Verif.Bench.LossProps

/-! # C150, C151: the ImageNet loss, and the ground truth the loss functions lead to -/

namespace Verif.BenchLoss

open Verif

variable {n h₁ h₂ c : ℕ} {X P S Q : Type}

/-! ### Helper lemmas -/

theorem imagenet_fold (net : X → Fin c → ℝ) (loader : List (List (X × ℤ))) (h : ∀ b ∈ loader, ∀ s ∈ b, Valid (-100) c s.2) (a : ℝ × ℕ) :
    (loader.foldlM (fun (a : ℝ × ℕ) b => do
      let l ← ceNone (-100) (b.map fun s => net s.1) (b.map Prod.snd)
      pure (a.1 + l.sum * b.length, a.2 + b.length)) a : Except Err (ℝ × ℕ)) =
    .ok (a.1 + (loader.map fun b => (b.length : ℝ) * (b.map fun s => nll (-100) (net s.1) s.2).sum).sum, a.2 + loader.flatten.length) := by
  induction loader generalizing a with
  | nil => simp [pure, Except.pure]
  | cons b l ih =>
    rw [List.foldlM_cons]
    have hb := (ceNone_iff (-100) (fun s : X × ℤ => net s.1) Prod.snd b _).2 ⟨h b (by simp), rfl⟩
    rw [hb]
    simp only [bind, Except.bind, pure, Except.pure]
    have := ih (fun b hb => h b (List.mem_cons_of_mem _ hb)) (a.1 + (b.map fun s => nll (-100) (net s.1) s.2).sum * b.length, a.2 + b.length)
    simp only [bind, Except.bind, pure, Except.pure] at this
    rw [this]
    simp only [List.map_cons, List.sum_cons, List.flatten_cons, List.length_append]
    congr 2
    · ring
    · ring

theorem sum_flatten' {α : Type} (f : α → ℝ) (ls : List (List α)) : (ls.flatten.map f).sum = (ls.map fun b => (b.map f).sum).sum := by
  induction ls with
  | nil => rfl
  | cons b l ih => rw [List.flatten_cons, List.map_append, List.sum_append, ih, List.map_cons, List.sum_cons]

theorem list_sum_le {α : Type} (l : List α) (f g : α → ℝ) (h : ∀ a ∈ l, f a ≤ g a) :
    (l.map f).sum ≤ (l.map g).sum ∧ ((l.map f).sum = (l.map g).sum → ∀ a ∈ l, f a = g a) := by
  induction l with
  | nil => simp
  | cons a l ih =>
    obtain ⟨h1, h2⟩ := ih fun x hx => h x (List.mem_cons_of_mem _ hx)
    have h3 := h a (by simp)
    simp only [List.map_cons, List.sum_cons]
    refine ⟨by linarith, fun he x hx => ?_⟩
    have h4 : f a = g a := by linarith
    rcases List.mem_cons.1 hx with rfl | hx
    · exact h4
    · exact h2 (by linarith) x hx

/-! ### C150 -/

/-- **C150** (value). With valid labels `loss_imagenet_resnet18` weights the loss of an example by the number of examples of its batch: it returns the sum over the batches
of `|b|` times the batch's summed loss, divided by the number of examples; without examples it raises `ZeroDivisionError`. -/
theorem C150_value (net : X → Fin c → ℝ) (loader : List (List (X × ℤ))) (h : ∀ s ∈ loader.flatten, Valid (-100) c s.2) :
    imagenetLoss net loader = if loader.flatten = [] then .error .zeroDivisionError else
      .ok ((loader.map fun b => (b.length : ℝ) * (b.map fun s => nll (-100) (net s.1) s.2).sum).sum / loader.flatten.length) := by
  unfold imagenetLoss
  rw [imagenet_fold net loader (fun b hb s hs => h s (List.mem_flatten.2 ⟨b, hb, hs⟩)) (0, 0)]
  simp only [bind, Except.bind, zero_add, List.length_eq_zero_iff, pure, Except.pure]

/-- **C150** (equal batches). With batches of `B` examples each the result is `B` times the mean loss: it grows with the batch size. -/
theorem C150_equal_batches (net : X → Fin c → ℝ) (loader : List (List (X × ℤ))) (h : ∀ s ∈ loader.flatten, Valid (-100) c s.2) (B : ℕ)
    (hB : ∀ b ∈ loader, b.length = B) (hne : loader.flatten ≠ []) :
    imagenetLoss net loader = .ok (B * ((loader.flatten.map fun s => nll (-100) (net s.1) s.2).sum / loader.flatten.length)) := by
  rw [C150_value net loader h, if_neg hne, sum_flatten']
  congr 1
  rw [← mul_div_assoc]
  congr 1
  rw [← List.sum_map_mul_left]
  congr 1
  refine List.map_congr_left fun b hb => ?_
  rw [hB b hb]

/-- **C150** (mean). When all losses are positive, the result is the mean loss exactly when every batch has a single example. -/
theorem C150_mean (net : X → Fin c → ℝ) (loader : List (List (X × ℤ))) (h : ∀ s ∈ loader.flatten, Valid (-100) c s.2)
    (hpos : ∀ s ∈ loader.flatten, 0 < nll (-100) (net s.1) s.2) (hb : ∀ b ∈ loader, b ≠ []) (hne : loader ≠ []) :
    imagenetLoss net loader = .ok ((loader.flatten.map fun s => nll (-100) (net s.1) s.2).sum / loader.flatten.length) ↔
      ∀ b ∈ loader, b.length = 1 := by
  have hf : loader.flatten ≠ [] := by
    obtain ⟨b, l, rfl⟩ := List.exists_cons_of_ne_nil hne
    intro h0
    exact hb b (by simp) (List.flatten_eq_nil_iff.1 h0 b (by simp))
  have hN : (0 : ℝ) < loader.flatten.length := by exact_mod_cast List.length_pos_iff.2 hf
  have hS : ∀ b ∈ loader, 0 < (b.map fun s => nll (-100) (net s.1) s.2).sum := by
    intro b hb'
    refine List.sum_pos _ ?_ (by simpa using hb b hb')
    intro x hx
    obtain ⟨s, hs, rfl⟩ := List.mem_map.1 hx
    exact hpos s (List.mem_flatten.2 ⟨b, hb', hs⟩)
  rw [C150_value net loader h, if_neg hf, sum_flatten', Except.ok.injEq, div_left_inj' hN.ne']
  obtain ⟨-, h2⟩ := list_sum_le loader (fun b => (b.map fun s => nll (-100) (net s.1) s.2).sum)
    (fun b => (b.length : ℝ) * (b.map fun s => nll (-100) (net s.1) s.2).sum) (fun b hb' => by
      have h1 : (1 : ℝ) ≤ b.length := by exact_mod_cast List.length_pos_iff.2 (hb b hb')
      nlinarith [hS b hb'])
  constructor
  · intro he b hb'
    have := h2 he.symm b hb'
    have h3 : (b.length : ℝ) = 1 := by
      have h4 := hS b hb'
      have : ((b.length : ℝ) - 1) * (b.map fun s => nll (-100) (net s.1) s.2).sum = 0 := by linarith
      rcases mul_eq_zero.1 this with h5 | h5
      · linarith
      · linarith
    exact_mod_cast h3
  · intro h1
    congr 1
    refine List.map_congr_left fun b hb' => ?_
    rw [h1 b hb']
    simp

/-- **C150** (sum). When all losses are positive, the result is the sum of the losses, which the documentation promises, exactly when there is a single batch. -/
theorem C150_sum (net : X → Fin c → ℝ) (loader : List (List (X × ℤ))) (h : ∀ s ∈ loader.flatten, Valid (-100) c s.2)
    (hpos : ∀ s ∈ loader.flatten, 0 < nll (-100) (net s.1) s.2) (hb : ∀ b ∈ loader, b ≠ []) (hne : loader ≠ []) :
    imagenetLoss net loader = .ok (loader.flatten.map fun s => nll (-100) (net s.1) s.2).sum ↔ loader.length = 1 := by
  have hf : loader.flatten ≠ [] := by
    obtain ⟨b, l, rfl⟩ := List.exists_cons_of_ne_nil hne
    intro h0
    exact hb b (by simp) (List.flatten_eq_nil_iff.1 h0 b (by simp))
  have hN : (0 : ℝ) < loader.flatten.length := by exact_mod_cast List.length_pos_iff.2 hf
  have hS : ∀ b ∈ loader, 0 < (b.map fun s => nll (-100) (net s.1) s.2).sum := by
    intro b hb'
    refine List.sum_pos _ ?_ (by simpa using hb b hb')
    intro x hx
    obtain ⟨s, hs, rfl⟩ := List.mem_map.1 hx
    exact hpos s (List.mem_flatten.2 ⟨b, hb', hs⟩)
  rw [C150_value net loader h, if_neg hf, sum_flatten', Except.ok.injEq, div_eq_iff hN.ne', mul_comm, ← List.sum_map_mul_left]
  have hle : ∀ b ∈ loader, b.length ≤ loader.flatten.length := by
    intro b hb'
    rw [List.length_flatten]
    exact List.single_le_sum (by simp) _ (List.mem_map.2 ⟨b, hb', rfl⟩)
  obtain ⟨-, h2⟩ := list_sum_le loader (fun b => (b.length : ℝ) * (b.map fun s => nll (-100) (net s.1) s.2).sum)
    (fun b => (loader.flatten.length : ℝ) * (b.map fun s => nll (-100) (net s.1) s.2).sum) (fun b hb' => by
      have h1 : (b.length : ℝ) ≤ loader.flatten.length := by exact_mod_cast hle b hb'
      exact mul_le_mul_of_nonneg_right h1 (hS b hb').le)
  constructor
  · intro he
    obtain ⟨b, l, rfl⟩ := List.exists_cons_of_ne_nil hne
    have h3 := h2 he b (by simp)
    have h4 : b.length = (b :: l).flatten.length := by exact_mod_cast mul_right_cancel₀ (hS b (by simp)).ne' h3
    rw [List.flatten_cons, List.length_append] at h4
    have h5 : l.flatten = [] := List.length_eq_zero_iff.1 (by omega)
    have h6 : l = [] := by
      by_contra hl
      obtain ⟨b', l', rfl⟩ := List.exists_cons_of_ne_nil hl
      exact hb b' (by simp) (List.flatten_eq_nil_iff.1 h5 b' (by simp))
    simp [h6]
  · intro h1
    obtain ⟨b, rfl⟩ := List.length_eq_one_iff.1 h1
    simp

/-- Three examples of two classes with equal scores: in batches of two and one the result is `5 / 3 · log 2`, neither the sum nor the mean. -/
example : imagenetLoss (c := 2) (fun _ : ℕ => fun _ => 0) [[(0, 0), (1, 1)], [(2, 0)]] = .ok (5 * Real.log 2 / 3) := by
  have hv : ∀ y : ℤ, y = 0 ∨ y = 1 → nll (c := 2) (-100) (fun _ => 0) y = Real.log 2 := by
    intro y hy
    unfold nll
    rw [dif_pos (by omega)]
    simp only [Real.exp_zero, Finset.sum_const, Finset.card_univ, Fintype.card_fin, nsmul_eq_mul, Nat.cast_ofNat, mul_one]
    rw [one_div, Real.log_inv, neg_neg]
  rw [C150_value _ _ (by simp [Valid])]
  simp [hv]
  ring

/-! ### The rows of the ground truth -/

theorem zipWith_range (T : ℕ) (f : ℕ → ℝ) (v : List ℝ) (hv : v.length = T) :
    List.zipWith (· + ·) ((List.range T).map f) v = (List.range T).map fun t => f t + v.getD t 0 := by
  refine List.ext_getElem (by simp [hv]) fun i h1 h2 => ?_
  have hi : i < v.length := by simp at h1; omega
  simp [List.getElem?_eq_getElem hi]

/-- Runs with `T` values each. -/
theorem ldsRow_full (T runs : ℕ) (target : ℕ → Except Err (List ℝ)) (v : ℕ → List ℝ) (h : ∀ j < runs, target j = .ok (v j) ∧ (v j).length = T) :
    ldsRow T runs target = .ok ((List.range T).map fun t => if runs = 0 then none else some (-((∑ j ∈ Finset.range runs, (v j).getD t 0) / runs))) := by
  have key : ∀ m ≤ runs, ((List.range m).foldlM (fun acc j => do
      let v ← target j
      addInto T acc v) (List.replicate T 0) : Except Err (List ℝ)) = .ok ((List.range T).map fun t => ∑ j ∈ Finset.range m, (v j).getD t 0) := by
    intro m
    induction m with
    | zero =>
      intro _
      simp [pure, Except.pure, List.map_const']
    | succ m ih =>
      intro hm
      rw [List.range_succ, List.foldlM_append, ih (by omega)]
      obtain ⟨h1, h2⟩ := h m (by omega)
      simp only [bind, Except.bind, List.foldlM_cons, List.foldlM_nil, h1, addInto, h2, if_true, pure, Except.pure, zipWith_range T _ _ h2]
      simp [Finset.sum_range_succ]
  unfold ldsRow
  rw [key runs le_rfl]
  simp [bind, Except.bind, pure, Except.pure]

/-- Runs with one value each. -/
theorem ldsRow_single (T runs : ℕ) (target : ℕ → Except Err (List ℝ)) (a : ℕ → ℝ) (h : ∀ j < runs, target j = .ok [a j]) :
    ldsRow T runs target = .ok (List.replicate T (if runs = 0 then none else some (-((∑ j ∈ Finset.range runs, a j) / runs)))) := by
  have key : ∀ m ≤ runs, ((List.range m).foldlM (fun acc j => do
      let v ← target j
      addInto T acc v) (List.replicate T 0) : Except Err (List ℝ)) = .ok (List.replicate T (∑ j ∈ Finset.range m, a j)) := by
    intro m
    induction m with
    | zero => intro _; simp [pure, Except.pure]
    | succ m ih =>
      intro hm
      rw [List.range_succ, List.foldlM_append, ih (by omega)]
      simp only [bind, Except.bind, List.foldlM_cons, List.foldlM_nil, h m (by omega), addInto, pure, Except.pure, List.length_singleton]
      rw [Finset.sum_range_succ]
      by_cases hT : 1 = T
      · subst hT
        simp
      · simp [hT]
  unfold ldsRow
  rw [key runs le_rfl]
  simp [bind, Except.bind, pure, Except.pure]

/-- A first run with another number of values. -/
theorem ldsRow_error (T runs : ℕ) (target : ℕ → Except Err (List ℝ)) (v : List ℝ) (hr : 0 < runs) (h : target 0 = .ok v) (h1 : v.length ≠ 1) (hT : v.length ≠ T) :
    ldsRow T runs target = .error .runtimeError := by
  obtain ⟨m, rfl⟩ : ∃ m, runs = m + 1 := ⟨runs - 1, by omega⟩
  unfold ldsRow
  rw [List.range_succ_eq_map, List.foldlM_cons, h]
  have : addInto T (List.replicate T 0) v = .error .runtimeError := by
    unfold addInto
    rw [if_neg hT]
    match v, h1 with
    | [], _ => rfl
    | [a], h1 => simp at h1
    | a :: b :: l, _ => rfl
  simp only [bind, Except.bind, this]

/-! ### C151 -/

/-- The files hold state dictionaries with the parameters `q 0, q 1, …` of the runs. -/
def Holds (fit : S → Option Q) (fs : P → Option (File S)) (path : ℕ → P) (runs : ℕ) (q : ℕ → Q) : Prop :=
  ∀ j < runs, ∃ s, fs (path j) = some (.state s) ∧ fit s = some (q j)

theorem lossOf_holds {R : Type} (fit : S → Option Q) (fs : P → Option (File S)) (path : ℕ → P) (runs : ℕ) (q : ℕ → Q) (h : Holds fit fs path runs q)
    (eval : Q → Except Err R) (j : ℕ) (hj : j < runs) : lossOf fit eval fs (.path (path j)) = eval (q j) := by
  obtain ⟨s, h1, h2⟩ := h j hj
  simp [lossOf, loadWeights, h1, h2, bind, Except.bind]

/-- **C151** (MNIST). With `loss_mnist_lr` as target function the LDS ground truth of test example `t` is minus the mean over the runs of the example's loss. -/
theorem C151_logistic (fit : S → Option (Fin (c * n + c) → ℝ)) (fs : P → Option (File S)) (path : ℕ → P) (runs : ℕ) (θ : ℕ → Fin (c * n + c) → ℝ)
    (hq : Holds fit fs path runs θ) (loader : List (List (List ℝ × ℤ))) (hne : loader ≠ [])
    (hv : ∀ s ∈ loader.flatten, s.1.length = n ∧ Valid (-100) c s.2) :
    ldsRow loader.flatten.length runs (fun j => lossOf fit (fun θ => perExample (lrForward θ) loader) fs (.path (path j))) =
      .ok (loader.flatten.map fun s => if runs = 0 then none else
        some (-((∑ j ∈ Finset.range runs, nll (-100) (lrScores (θ j) (vec n s.1)) s.2) / runs))) := by
  rw [ldsRow_full _ _ _ (fun j => loader.flatten.map fun s => nll (-100) (lrScores (θ j) (vec n s.1)) s.2)]
  · congr 1
    refine List.ext_getElem (by rw [List.length_map, List.length_map, List.length_range]) fun i h1 h2 => ?_
    have hi : i < loader.flatten.length := by rwa [List.length_map, List.length_range] at h1
    simp only [List.getElem_map, List.getElem_range, List.getD_eq_getElem?_getD, List.getElem?_map, List.getElem?_eq_getElem hi, Option.map_some,
      Option.getD_some]
  · intro j hj
    rw [lossOf_holds fit fs path runs θ hq _ j hj]
    exact ⟨(C149_logistic (θ j) loader _).2 ⟨hne, hv, rfl⟩, by rw [List.length_map]⟩

/-- **C151** (MNIST MLP). The same with `loss_mnist_mlp`, for every network: minus the mean over the runs of the example's loss. -/
theorem C151_mlp {h₁ h₂ : ℕ} (hn : 0 < n) (fit : S → Option (MLP n h₁ h₂ c)) (fs : P → Option (File S)) (path : ℕ → P) (runs : ℕ) (N : ℕ → MLP n h₁ h₂ c)
    (hq : Holds fit fs path runs N) (loader : List (List (List ℝ × ℤ))) (hne : loader ≠ []) (hb : ∀ b ∈ loader, b ≠ [])
    (hv : ∀ s ∈ loader.flatten, s.1.length = n ∧ Valid (-100) c s.2) :
    ldsRow loader.flatten.length runs (fun j => lossOf fit (fun N => perExample N.forward loader) fs (.path (path j))) =
      .ok (loader.flatten.map fun s => if runs = 0 then none else
        some (-((∑ j ∈ Finset.range runs, nll (-100) (mlpScores (N j) (vec n s.1)) s.2) / runs))) := by
  rw [ldsRow_full _ _ _ (fun j => loader.flatten.map fun s => nll (-100) (mlpScores (N j) (vec n s.1)) s.2)]
  · congr 1
    refine List.ext_getElem (by rw [List.length_map, List.length_map, List.length_range]) fun i h1 h2 => ?_
    have hi : i < loader.flatten.length := by rwa [List.length_map, List.length_range] at h1
    simp only [List.getElem_map, List.getElem_range, List.getD_eq_getElem?_getD, List.getElem?_map, List.getElem?_eq_getElem hi, Option.map_some,
      Option.getD_some]
  · intro j hj
    rw [lossOf_holds fit fs path runs N hq _ j hj]
    exact ⟨(C149_mlp hn (N j) loader hb _).2 ⟨hne, hv, rfl⟩, by rw [List.length_map]⟩

/-- **C151** (ImageNet). With `loss_imagenet_resnet18` all test examples get the same value, so the ground truth does not tell them apart. -/
theorem C151_imagenet (fit : S → Option (X → Fin c → ℝ)) (fs : P → Option (File S)) (path : ℕ → P) (runs : ℕ) (net : ℕ → X → Fin c → ℝ)
    (hq : Holds fit fs path runs net) (loader : List (List (X × ℤ))) (hne : loader.flatten ≠ []) (hv : ∀ s ∈ loader.flatten, Valid (-100) c s.2) :
    ∃ a, ldsRow loader.flatten.length runs
      (fun j => lossOf fit (fun net => (imagenetLoss net loader).map fun x => [x]) fs (.path (path j))) = .ok (List.replicate loader.flatten.length a) := by
  refine ⟨_, ldsRow_single _ _ _ (fun j => (loader.map fun b => (b.length : ℝ) * (b.map fun s => nll (-100) (net j s.1) s.2).sum).sum /
    loader.flatten.length) fun j hj => ?_⟩
  rw [lossOf_holds fit fs path runs net hq _ j hj, C150_value (net j) loader hv, if_neg hne]
  rfl

/-- **C151** (WikiText-2). `loss_wikitext2_gpt2` gives one value per batch. With one example per batch the ground truth is minus the mean over the runs of the example's mean token
loss; with a single batch all examples get the same value, and with any other number of batches than examples the call raises. -/
theorem C151_wikitext (fit : S → Option (X → List ℝ)) (fs : P → Option (File S)) (path : ℕ → P) (runs : ℕ) (tok : ℕ → X → List ℝ)
    (hq : Holds fit fs path runs tok) (hr : 0 < runs) (loader : List (List X)) (hne : loader ≠ []) (T : ℕ) :
    ((∀ b ∈ loader, b.length = 1) → T = loader.flatten.length →
      ldsRow T runs (fun j => lossOf fit (fun tok => wikitextLoss tok loader) fs (.path (path j))) =
        .ok (loader.flatten.map fun x => some (-((∑ j ∈ Finset.range runs, (tok j x).sum / (tok j x).length) / runs)))) ∧
    (loader.length = 1 → ∃ a, ldsRow T runs (fun j => lossOf fit (fun tok => wikitextLoss tok loader) fs (.path (path j))) =
        .ok (List.replicate T a)) ∧
    (loader.length ≠ 1 → loader.length ≠ T →
      ldsRow T runs (fun j => lossOf fit (fun tok => wikitextLoss tok loader) fs (.path (path j))) = .error .runtimeError) := by
  have hval : ∀ j < runs, lossOf fit (fun tok => wikitextLoss tok loader) fs (.path (path j)) = .ok (loader.map (lmLoss (tok j))) := by
    intro j hj
    rw [lossOf_holds fit fs path runs tok hq _ j hj, wikitextLoss, if_neg hne]
  refine ⟨?_, ?_, ?_⟩
  · intro h1 hT
    have hx : ∃ xs : List X, loader = xs.map fun x => [x] := by
      clear hne hval hT
      induction loader with
      | nil => exact ⟨[], rfl⟩
      | cons b l ih =>
        obtain ⟨xs, rfl⟩ := ih fun b hb => h1 b (List.mem_cons_of_mem _ hb)
        obtain ⟨x, rfl⟩ := List.length_eq_one_iff.1 (h1 b (by simp))
        exact ⟨x :: xs, rfl⟩
    obtain ⟨xs, rfl⟩ := hx
    have hfl : (xs.map fun x => [x]).flatten = xs := by
      clear hne hval hT h1
      induction xs with
      | nil => rfl
      | cons a l ih => rw [List.map_cons, List.flatten_cons, ih]; rfl
    rw [hfl] at hT ⊢
    subst hT
    rw [ldsRow_full _ _ _ (fun j => xs.map fun x => (tok j x).sum / (tok j x).length)]
    · congr 1
      refine List.ext_getElem (by simp) fun i h1 h2 => ?_
      have hi : i < xs.length := by simpa using h1
      simp only [List.getElem_map, List.getElem_range, List.getD_eq_getElem?_getD, List.getElem?_map, List.getElem?_eq_getElem hi, Option.map_some,
        Option.getD_some, hr.ne', if_false]
    · intro j hj
      refine ⟨?_, by simp⟩
      rw [hval j hj, List.map_map]
      congr 1
      refine List.map_congr_left fun x _ => ?_
      simp [lmLoss]
  · intro h1
    obtain ⟨b, rfl⟩ := List.length_eq_one_iff.1 h1
    exact ⟨_, ldsRow_single _ _ _ (fun j => lmLoss (tok j) b) fun j hj => by rw [hval j hj]; rfl⟩
  · intro h1 h2
    exact ldsRow_error _ _ _ _ hr (hval 0 hr) (by simpa using h1) (by simpa using h2)

/-- Minus the log-probability which the network gives to the last target token after the whole input sequence alone; 0 for a padding token. -/
noncomputable def seqLoss (net : Music.Net) (T : ℕ) (s : List ℕ × List ℤ) : ℝ :=
  nll tokenPad (fun v : Fin Music.vocabSize => Music.one net T true (fun t => s.1.getD t 0) (T - 1) v) (s.2.getLastD 0)

/-- One batch of sequences, each of length `T`. -/
theorem maestroBatch_iff (net : Music.Net) (wf : net.WF) (T : ℕ) (hT : 0 < T) (hm : T ≤ net.maxSeq) (b : List (List ℕ × List ℤ))
    (htok : ∀ s ∈ b, s.1.length = T ∧ (∀ t ∈ s.1, t < net.vocab) ∧ ∃ y, s.2.getLast? = some y ∧ Valid tokenPad Music.vocabSize y) :
    maestroBatch net T b = .ok (b.map fun s => -seqLoss net T s) := by
  obtain ⟨y, h1, h2, -⟩ := Music.C138_separate net wf T b.length (fun i t => ((b.getD i ([], [])).1).getD t 0) true (by
    intro t ht i hi
    have hs := htok b[i] (List.getElem_mem hi)
    simp only [List.getD_eq_getElem?_getD, List.getElem?_eq_getElem hi, Option.getD_some]
    have ht' : t < b[i].1.length := by rw [hs.1]; exact ht
    rw [List.getElem?_eq_getElem ht', Option.getD_some]
    exact hs.2.1 _ (List.getElem_mem ht')) hm
  have h3 : b.mapM (fun s => lastTarget s.2) = .ok (b.map fun s => s.2.getLastD 0) := by
    refine Music.mapM_all' _ (fun s : List ℕ × List ℤ => s.2.getLastD 0) b fun s hs => ?_
    obtain ⟨t, ht, -⟩ := (htok s hs).2.2
    rw [lastTarget, ht, List.getLastD_eq_getLast?, ht]
    rfl
  have h4 : ((List.range b.length).map fun i => fun v : Fin Music.vocabSize => y (T - 1) i v) =
      b.map fun s => fun v : Fin Music.vocabSize => Music.one net T true (fun t => s.1.getD t 0) (T - 1) v := by
    refine List.ext_getElem (by simp) fun i hi1 hi2 => ?_
    have hi : i < b.length := by simpa using hi1
    simp only [List.getElem_map, List.getElem_range]
    rw [h2 (T - 1) (by omega) i hi]
    simp [List.getElem?_eq_getElem hi]
  have h5 := (ceNone_iff tokenPad (fun s : List ℕ × List ℤ => fun v : Fin Music.vocabSize => Music.one net T true (fun t => s.1.getD t 0) (T - 1) v)
    (fun s => s.2.getLastD 0) b _).2 ⟨fun s hs => by
      obtain ⟨t, ht, hv⟩ := (htok s hs).2.2
      rw [List.getLastD_eq_getLast?, ht]
      exact hv, rfl⟩
  unfold maestroBatch
  rw [h1]
  simp only [bind, Except.bind, pure, Except.pure]
  rw [h3]
  simp only [h4, h5, List.map_map]
  rfl

/-- **C151** (MAESTRO, values). `loss_maestro_musictransformer` returns, one per sequence in the loader's order, the log-probability (not its negative) which the network gives to the
last target token after the whole input; 0 for a padding token. The scores of a sequence are those the network gives to it alone. -/
theorem C151_maestro_values (net : Music.Net) (wf : net.WF) (T : ℕ) (hT : 0 < T) (hm : T ≤ net.maxSeq) (loader : List (List (List ℕ × List ℤ)))
    (hne : loader ≠ []) (htok : ∀ s ∈ loader.flatten, s.1.length = T ∧ (∀ t ∈ s.1, t < net.vocab) ∧
      ∃ y, s.2.getLast? = some y ∧ Valid tokenPad Music.vocabSize y) :
    maestroLoss net T loader = .ok (loader.flatten.map fun s =>
      -seqLoss net T s) := by
  unfold maestroLoss
  have h1 : loader.mapM (maestroBatch net T) = .ok (loader.map fun b => b.map fun s => -seqLoss net T s) :=
    Music.mapM_all' _ _ loader fun b hb => maestroBatch_iff net wf T hT hm b fun s hs => htok s (List.mem_flatten.2 ⟨b, hb, hs⟩)
  rw [h1]
  have hn : (loader.map fun b => b.map fun s => -seqLoss net T s) ≠ [] := fun h => hne (List.map_eq_nil_iff.1 h)
  simp only [bind, Except.bind]
  rw [if_neg hn, List.map_flatten]
  rfl

/-- **C151** (MAESTRO). Because the loss function already negates, the LDS ground truth of a sequence is *plus* the mean over the runs of its loss: the opposite sign to the
other benchmarks. -/
theorem C151_maestro (fit : S → Option Music.Net) (fs : P → Option (File S)) (path : ℕ → P) (runs : ℕ) (hr : 0 < runs) (net : ℕ → Music.Net)
    (hq : Holds fit fs path runs net) (wf : ∀ j < runs, (net j).WF) (T : ℕ) (hT : 0 < T) (hm : ∀ j < runs, T ≤ (net j).maxSeq)
    (loader : List (List (List ℕ × List ℤ))) (hne : loader ≠ [])
    (htok : ∀ j < runs, ∀ s ∈ loader.flatten, s.1.length = T ∧ (∀ t ∈ s.1, t < (net j).vocab) ∧
      ∃ y, s.2.getLast? = some y ∧ Valid tokenPad Music.vocabSize y) :
    ldsRow loader.flatten.length runs (fun j => lossOf fit (fun net => maestroLoss net T loader) fs (.path (path j))) =
      .ok (loader.flatten.map fun s => some ((∑ j ∈ Finset.range runs,
        seqLoss (net j) T s) / runs)) := by
  rw [ldsRow_full _ _ _ (fun j => loader.flatten.map fun s =>
    -seqLoss (net j) T s)]
  · congr 1
    refine List.ext_getElem (by rw [List.length_map, List.length_map, List.length_range]) fun i h1 h2 => ?_
    have hi : i < loader.flatten.length := by rwa [List.length_map, List.length_range] at h1
    simp only [List.getElem_map, List.getElem_range, List.getD_eq_getElem?_getD, List.getElem?_map, List.getElem?_eq_getElem hi, Option.map_some,
      Option.getD_some, hr.ne', if_false]
    rw [Finset.sum_neg_distrib, neg_div, neg_neg]
  · intro j hj
    rw [lossOf_holds fit fs path runs net hq _ j hj]
    exact ⟨C151_maestro_values (net j) (wf j hj) T hT (hm j hj) loader hne (htok j hj), by rw [List.length_map]⟩

/-- **C151** (leave-one-out). `calculate_loo_ground_truth` hands the loaded model to the target function while the benchmark's loss functions want a path: with any of them it raises
`TypeError` as soon as there is one retrained model. Passing the path of a model saved by `retrain_loo` raises `TypeError`, too, since it holds a module. -/
theorem C151_loo (fit : S → Option Q) (eval : Q → Except Err (List ℝ)) (fs : P → Option (File S)) (T : ℕ) (files : List (File S)) :
    (files ≠ [] → looRows T (lossOf fit eval fs) files = .error .typeError) ∧
    (∀ p s, fs p = some (.module s) → lossOf fit eval fs (.path p) = .error .typeError) := by
  constructor
  · intro h
    obtain ⟨f, l, rfl⟩ := List.exists_cons_of_ne_nil h
    simp [looRows, List.mapM_cons, lossOf, loadWeights, bind, Except.bind]
  · intro p s h
    simp [lossOf, loadWeights, h, bind, Except.bind]

/-- Two runs of logistic regression with one pixel and two classes. -/
example : Holds (S := Fin (2 * 1 + 2) → ℝ) some (fun p : ℕ => some (.state fun _ => (p : ℝ))) id 2 (fun j _ => (j : ℝ)) ∧
    ∀ s ∈ ([[([3], 0)], [([4], 1)]] : List (List (List ℝ × ℤ))).flatten, s.1.length = 1 ∧ Valid (-100) 2 s.2 := by
  refine ⟨fun j _ => ⟨_, rfl, rfl⟩, ?_⟩
  intro s hs
  simp only [List.flatten_cons, List.flatten_nil, List.append_nil, List.cons_append, List.nil_append, List.mem_cons, List.not_mem_nil, or_false] at hs
  rcases hs with rfl | rfl <;> simp [Valid]

/-- A MAESTRO case: one sequence of two tokens. -/
example (net : Music.Net) (hv : net.vocab = Music.vocabSize) :
    ∀ s ∈ ([[([60, 188], [188, 61])]] : List (List (List ℕ × List ℤ))).flatten, s.1.length = 2 ∧ (∀ t ∈ s.1, t < net.vocab) ∧
      ∃ y, s.2.getLast? = some y ∧ Valid tokenPad Music.vocabSize y := by
  simp [hv, Music.vocabSize, Valid, tokenPad]

end Verif.BenchLoss
