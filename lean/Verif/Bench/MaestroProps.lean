import Mathlib.Tactic.Linarith
import Mathlib.Tactic.NormNum
import Mathlib.Tactic.Positivity
import Verif.Bench.Maestro

/-!
# C120, C121: which MusicTransformer is returned, and how it is evaluated
-/

namespace Verif.Maestro

variable {W : Type}

/-- Specification: the world after the untrained evaluation and `k` epochs of training, each followed by an evaluation. -/
def after (train : W → W) (eval : W → List (List Sample) × W) (w : W) : ℕ → W
  | 0 => (eval w).2
  | k + 1 => (eval (train (after train eval w k))).2

/-- Specification: the batches seen by the `k`-th evaluation. -/
def seen (train : W → W) (eval : W → List (List Sample) × W) (w : W) : ℕ → List (List Sample)
  | 0 => (eval w).1
  | k + 1 => (eval (train (after train eval w k))).1

/-- Specification: some sample of the batch is predicted correctly, or all its targets are padding. -/
def SomeRight (pad : ℕ) (b : List Sample) : Prop := (∃ s ∈ b, s.tgt ≠ pad ∧ s.out = s.tgt) ∨ ∀ s ∈ b, s.tgt = pad

/-- Specification: the evaluation counts as a success: its loss is a number, or its accuracy is positive. -/
def Counts (pad : ℕ) (bs : List (List Sample)) : Prop := (∀ b ∈ bs, ∃ s ∈ b, s.tgt ≠ pad) ∨ ∃ b ∈ bs, SomeRight pad b

/-- The targets that are not padding. -/
def real (pad : ℕ) (b : List Sample) : List Sample := b.filter fun s => s.tgt ≠ pad

lemma kept_out (pad : ℕ) (b : List Sample) :
    ((b.map (·.out)).zip (b.map (·.tgt))).filter (fun x => x.2 ≠ pad) = (real pad b).map fun s => (s.out, s.tgt) := by
  unfold real
  induction b with
  | nil => rfl
  | cons s b ih =>
    simp only [List.map_cons, List.zip_cons_cons, List.filter_cons]
    split_ifs with h
    · rw [List.map_cons, ih]
    · exact ih

lemma kept_loss (pad : ℕ) (b : List Sample) :
    ((b.map (·.loss)).zip (b.map (·.tgt))).filter (fun x => x.2 ≠ pad) = (real pad b).map fun s => (s.loss, s.tgt) := by
  unfold real
  induction b with
  | nil => rfl
  | cons s b ih =>
    simp only [List.map_cons, List.zip_cons_cons, List.filter_cons]
    split_ifs with h
    · rw [List.map_cons, ih]
    · exact ih

lemma accuracy_eq (pad : ℕ) (b : List Sample) :
    epianoAccuracy pad (b.map (·.out)) (b.map (·.tgt)) =
      if real pad b = [] then 1 else (((real pad b).filter fun s => s.out = s.tgt).length : ℚ) / (real pad b).length := by
  unfold epianoAccuracy
  simp only
  rw [kept_out, List.length_map, List.filter_map, List.length_map]
  simp only [List.length_eq_zero_iff]
  rfl

lemma loss_eq (pad : ℕ) (b : List Sample) :
    meanLoss pad (b.map (·.loss)) (b.map (·.tgt)) =
      if real pad b = [] then .nan else .num (((real pad b).map (·.loss)).sum / (real pad b).length) := by
  unfold meanLoss
  simp only
  rw [kept_loss, List.length_map, List.map_map]
  simp only [List.length_eq_zero_iff]
  rfl

/-- Accuracy of one batch, as a fraction of the real targets. -/
def batchAcc (pad : ℕ) (b : List Sample) : ℚ :=
  if real pad b = [] then 1 else (((real pad b).filter fun s => s.out = s.tgt).length : ℚ) / (real pad b).length

lemma batchAcc_nonneg (pad : ℕ) (b : List Sample) : 0 ≤ batchAcc pad b := by
  unfold batchAcc; split_ifs <;> positivity

lemma batchAcc_pos (pad : ℕ) (b : List Sample) : 0 < batchAcc pad b ↔ SomeRight pad b := by
  unfold batchAcc SomeRight
  split_ifs with h
  · simp only [zero_lt_one, true_iff]
    right
    intro s hs
    by_contra hn
    have : s ∈ real pad b := List.mem_filter.2 ⟨hs, by simpa using hn⟩
    rw [h] at this; simp at this
  · have hpos : (0 : ℚ) < (real pad b).length := by
      have := List.length_pos_of_ne_nil h
      exact_mod_cast this
    rw [div_pos_iff_of_pos_right hpos]
    constructor
    · intro h1
      left
      have h2 : 0 < ((real pad b).filter fun s => s.out = s.tgt).length := by exact_mod_cast h1
      obtain ⟨s, hs⟩ := List.length_pos_iff_exists_mem.1 h2
      obtain ⟨ha, hb⟩ := List.mem_filter.1 hs
      obtain ⟨hc, hd⟩ := List.mem_filter.1 ha
      exact ⟨s, hc, by simpa using hd, by simpa using hb⟩
    · rintro (⟨s, hs, hp, ho⟩ | hall)
      · have h2 : 0 < ((real pad b).filter fun s => s.out = s.tgt).length :=
          List.length_pos_iff_exists_mem.2 ⟨s, List.mem_filter.2 ⟨List.mem_filter.2 ⟨hs, by simpa using hp⟩, by simpa using ho⟩⟩
        exact_mod_cast h2
      · exfalso
        apply h
        unfold real
        rw [List.filter_eq_nil_iff]
        intro s hs
        simp [hall s hs]

lemma foldl_sums (pad : ℕ) (bs : List (List Sample)) (x : Fl) (y : ℚ) :
    bs.foldl (fun (s : Fl × ℚ) b =>
      (s.1.add (meanLoss pad (b.map (·.loss)) (b.map (·.tgt))), s.2 + epianoAccuracy pad (b.map (·.out)) (b.map (·.tgt)))) (x, y) =
    ((bs.map fun b => meanLoss pad (b.map (·.loss)) (b.map (·.tgt))).foldl Fl.add x, y + (bs.map (batchAcc pad)).sum) := by
  induction bs generalizing x y with
  | nil => simp
  | cons b bs ih =>
    rw [List.foldl_cons, ih]
    simp only [List.map_cons, List.foldl_cons, List.sum_cons]
    rw [accuracy_eq, ← add_assoc]
    rfl

lemma add_num_iff (x y : Fl) (q : ℚ) : x.add y = .num q ↔ ∃ a b, x = .num a ∧ y = .num b ∧ q = a + b := by
  cases x <;> cases y <;> simp [Fl.add, eq_comm]

lemma fold_nan (l : List Fl) : l.foldl Fl.add .nan = .nan := by
  induction l with
  | nil => rfl
  | cons x l ih => rw [List.foldl_cons]; cases x <;> exact ih

lemma fold_losses (pad : ℕ) (bs : List (List Sample)) (q : ℚ) :
    (bs.map fun b => meanLoss pad (b.map (·.loss)) (b.map (·.tgt))).foldl Fl.add (.num q) =
      if (∀ b ∈ bs, real pad b ≠ []) then .num (q + (bs.map fun b => ((real pad b).map (·.loss)).sum / (real pad b).length).sum) else .nan := by
  induction bs generalizing q with
  | nil => simp
  | cons b bs ih =>
    rw [List.map_cons, List.foldl_cons, loss_eq]
    by_cases h : real pad b = []
    · rw [if_pos h]
      have : Fl.add (.num q) .nan = .nan := rfl
      rw [this, fold_nan, if_neg]
      intro hall
      exact hall b List.mem_cons_self h
    · rw [if_neg h]
      have : ∀ x, Fl.add (.num q) (.num x) = .num (q + x) := fun _ => rfl
      rw [this, ih]
      simp only [List.forall_mem_cons, ne_eq, h, not_false_eq_true, true_and, List.map_cons, List.sum_cons]
      split_ifs <;> simp [add_assoc]

lemma evalModel_eq (pad : ℕ) (bs : List (List Sample)) (h : bs ≠ []) :
    evalModel pad bs = .ok ((if (∀ b ∈ bs, real pad b ≠ []) then
        .num ((bs.map fun b => ((real pad b).map (·.loss)).sum / (real pad b).length).sum / bs.length) else .nan),
      (bs.map (batchAcc pad)).sum / bs.length) := by
  unfold evalModel
  simp only
  rw [if_neg (fun h' => h (List.length_eq_zero_iff.1 h')), foldl_sums, fold_losses]
  simp only [zero_add]
  split_ifs <;> rfl

lemma sum_pos_iff (pad : ℕ) (bs : List (List Sample)) : 0 < (bs.map (batchAcc pad)).sum ↔ ∃ b ∈ bs, SomeRight pad b := by
  induction bs with
  | nil => simp
  | cons b bs ih =>
    rw [List.map_cons, List.sum_cons, List.exists_mem_cons_iff, ← batchAcc_pos, ← ih]
    have h1 := batchAcc_nonneg pad b
    have h2 : 0 ≤ (bs.map (batchAcc pad)).sum := by
      apply List.sum_nonneg
      intro x hx
      obtain ⟨b', -, rfl⟩ := List.mem_map.1 hx
      exact batchAcc_nonneg _ _
    constructor
    · intro h
      by_contra hn
      rw [not_or, not_lt, not_lt] at hn
      linarith [hn.1, hn.2]
    · rintro (h | h) <;> linarith

lemma real_ne_nil (pad : ℕ) (b : List Sample) : real pad b ≠ [] ↔ ∃ s ∈ b, s.tgt ≠ pad := by
  unfold real
  rw [ne_eq, List.filter_eq_nil_iff]
  push Not
  simp

/-- The invariant of the loop after the evaluations `0 … k`. -/
lemma loop (pad : ℕ) (train : W → W) (eval : W → List (List Sample) × W) (w : W) (hne : ∀ w, (eval w).1 ≠ []) (k : ℕ) :
    ∃ st, (epochs k).foldlM (round pad train eval) ⟨w, false, 0, .inf⟩ = .ok st ∧ st.world = after train eval w k ∧
      (st.bestBound = true ↔ ∃ j ≤ k, Counts pad (seen train eval w j)) ∧ (st.bestBound = false → st.bestAcc = 0 ∧ st.bestLoss = .inf) := by
  have step : ∀ (st : St W) (e : ℤ) (v : W), (if -1 < e then train st.world else st.world) = v →
      (st.bestBound = false → st.bestAcc = 0 ∧ st.bestLoss = .inf) →
      ∃ st', round pad train eval st e = .ok st' ∧ st'.world = (eval v).2 ∧
        (st'.bestBound = true ↔ st.bestBound = true ∨ (st.bestBound = false ∧ Counts pad (eval v).1)) ∧
        (st'.bestBound = false → st'.bestAcc = 0 ∧ st'.bestLoss = .inf) := by
    intro st e v hv hinv
    unfold round
    rw [hv]
    simp only
    rw [evalModel_eq pad _ (hne v)]
    refine ⟨_, rfl, rfl, ?_, ?_⟩
    · simp only
      cases hb : st.bestBound with
      | true => simp
      | false =>
        obtain ⟨h1, h2⟩ := hinv hb
        rw [h1, h2]
        simp only [Bool.if_true_left, Bool.or_false, Bool.or_eq_true, decide_eq_true_eq, Bool.false_eq_true, true_and, false_or]
        unfold Counts
        have hlen : (0 : ℚ) < ((eval v).1.length : ℚ) := by
          have := List.length_pos_of_ne_nil (hne v)
          exact_mod_cast this
        rw [div_pos_iff_of_pos_right hlen, sum_pos_iff, or_comm]
        apply or_congr _ Iff.rfl
        simp only [← real_ne_nil]
        split_ifs with h
        · exact ⟨fun _ => h, fun _ => rfl⟩
        · exact ⟨fun h' => by simp [Fl.lt] at h', fun h' => absurd h' h⟩
    · simp only
      generalize (if ∀ b ∈ (eval v).1, real pad b ≠ [] then _ else Fl.nan) = loss
      generalize ((eval v).1.map (batchAcc pad)).sum / ((eval v).1.length : ℚ) = acc
      intro hf
      split_ifs at hf with hc
      rw [Bool.or_eq_true, not_or] at hc
      obtain ⟨h1, h2⟩ := hinv hf
      rw [if_neg hc.1, if_neg hc.2]
      exact ⟨h1, h2⟩
  have hep : ∀ k : ℕ, epochs ((k + 1 : ℕ) : ℤ) = epochs k ++ [(k : ℤ)] := by
    intro k
    unfold epochs
    have h1 : (((k + 1 : ℕ) : ℤ) + 1).toNat = k + 1 + 1 := by omega
    have h2 : ((k : ℤ) + 1).toNat = k + 1 := by omega
    rw [h1, h2, List.range_succ, List.map_append]
    simp
  induction k with
  | zero =>
    obtain ⟨st', h1, h2, h3, h4⟩ := step ⟨w, false, 0, .inf⟩ (-1) w (by simp) (fun _ => ⟨rfl, rfl⟩)
    refine ⟨st', ?_, h2, ?_, h4⟩
    · have : epochs ((0 : ℕ) : ℤ) = [-1] := by decide
      rw [this, List.foldlM_cons, h1]; rfl
    · rw [h3]
      simp [seen]
  | succ k ih =>
    obtain ⟨st, h1, h2, h3, h4⟩ := ih
    obtain ⟨st', h5, h6, h7, h8⟩ := step st k (train (after train eval w k)) (by rw [if_pos (by omega), h2]) h4
    refine ⟨st', ?_, h6, ?_, h8⟩
    · rw [hep, List.foldlM_append, h1]
      show List.foldlM (round pad train eval) st [(k : ℤ)] = _
      rw [List.foldlM_cons, h5]; rfl
    · rw [h7]
      constructor
      · rintro (h | ⟨-, h⟩)
        · obtain ⟨j, hj, hc⟩ := h3.1 h
          exact ⟨j, by omega, hc⟩
        · exact ⟨k + 1, le_refl _, h⟩
      · rintro ⟨j, hj, hc⟩
        cases hb : st.bestBound with
        | true => exact Or.inl rfl
        | false =>
          right
          refine ⟨rfl, ?_⟩
          rcases Nat.lt_or_ge k j with hlt | hle
          · have : j = k + 1 := by omega
            subst this
            exact hc
          · exact absurd (h3.2 ⟨j, hle, hc⟩) (by simp [hb])

/-- **C120** (returned model). For `n ≥ 0` epochs on a loader with batches, the returned model is the one after the last epoch, whatever the
evaluations were, provided some evaluation (the untrained one included) has a numeric loss or a positive accuracy; otherwise the call ends in
`UnboundLocalError` after all the training. -/
theorem C120_last (pad : ℕ) (train : W → W) (eval : W → List (List Sample) × W) (w : W) (hne : ∀ w, (eval w).1 ≠ []) (n : ℕ) :
    ((∃ j ≤ n, Counts pad (seen train eval w j)) → trainMaestro pad train eval w n = .ok (after train eval w n)) ∧
    ((¬ ∃ j ≤ n, Counts pad (seen train eval w j)) → trainMaestro pad train eval w n = .error .unboundLocalError) := by
  obtain ⟨st, h1, h2, h3, -⟩ := loop pad train eval w hne n
  unfold trainMaestro
  rw [h1]
  constructor
  · intro h
    show (if st.bestBound = true then Except.ok st.world else _) = _
    rw [if_pos (h3.2 h), h2]
  · intro h
    show (if st.bestBound = true then Except.ok st.world else _) = _
    rw [if_neg (fun h' => h (h3.1 h'))]

/-- **C120** (errors). A negative number of epochs ends in `UnboundLocalError`, an empty loader in `ZeroDivisionError`. -/
theorem C120_errors (pad : ℕ) (train : W → W) (eval : W → List (List Sample) × W) (w : W) (n : ℤ) :
    (n < 0 → trainMaestro pad train eval w n = .error .unboundLocalError) ∧
    (0 ≤ n → (∀ w, (eval w).1 = []) → trainMaestro pad train eval w n = .error .zeroDivisionError) := by
  constructor
  · intro h
    have : epochs n = [] := by
      unfold epochs
      rw [Int.toNat_of_nonpos (by omega)]
      rfl
    unfold trainMaestro
    rw [this]
    rfl
  · intro h he
    obtain ⟨m, hm⟩ : ∃ m, (n + 1).toNat = m + 1 := ⟨n.toNat, by omega⟩
    have : ∃ rest, epochs n = (-1) :: rest := by
      unfold epochs
      rw [hm, List.range_succ_eq_map, List.map_cons]
      exact ⟨_, by simp; rfl⟩
    obtain ⟨rest, hr⟩ := this
    unfold trainMaestro
    rw [hr, List.foldlM_cons]
    have hround : round pad train eval ⟨w, false, 0, .inf⟩ (-1) = .error .zeroDivisionError := by
      unfold round
      simp only [he]
      rfl
    rw [hround]
    rfl

/-- **C120** (not the best). For any sequence of losses whatsoever there is a training with these losses from which the model of the last epoch is
returned, also if another epoch was better. -/
theorem C120_not_best (losses : ℕ → ℚ) (n : ℕ) :
    trainMaestro 0 (· + 1) (fun k => ([[⟨0, losses k, 1⟩]], k)) 0 n = .ok n ∧
      ∀ k, evalModel 0 [[⟨0, losses k, 1⟩]] = .ok (.num (losses k), 0) := by
  have hafter : ∀ k, after (· + 1) (fun k : ℕ => (([[⟨0, losses k, 1⟩]], k) : List (List Sample) × ℕ)) 0 k = k := by
    intro k
    induction k with
    | zero => rfl
    | succ k ih => unfold after; rw [ih]
  constructor
  · have h := (C120_last 0 (· + 1) (fun k : ℕ => (([[⟨0, losses k, 1⟩]], k) : List (List Sample) × ℕ)) 0 (by simp) n).1
      ⟨0, Nat.zero_le _, Or.inl (by simp [seen])⟩
    rw [h, hafter]
  · intro k
    rw [evalModel_eq 0 _ (by simp)]
    have : real 0 [⟨0, losses k, 1⟩] = [⟨0, losses k, 1⟩] := rfl
    simp [this, batchAcc]

/-- **C121** (evaluation). The accuracy is the mean over batches of the fraction of right predictions among the real (not padding) targets, where a
batch of padding only counts as fully right; the loss is the mean over batches of the mean losses of the real targets, and not a number as soon as one
batch has no real target. -/
theorem C121_average (pad : ℕ) (bs : List (List Sample)) (h : bs ≠ []) :
    ∃ l a, evalModel pad bs = .ok (l, a) ∧
      a * bs.length = (bs.map fun b => if ∃ s ∈ b, s.tgt ≠ pad then
        ((b.filter fun s => s.tgt ≠ pad ∧ s.out = s.tgt).length : ℚ) / ((b.filter fun s => s.tgt ≠ pad).length : ℚ) else 1).sum ∧
      (l = .nan ↔ ∃ b ∈ bs, ∀ s ∈ b, s.tgt = pad) ∧
      ((∀ b ∈ bs, ∃ s ∈ b, s.tgt ≠ pad) → ∃ q, l = .num q ∧ q * bs.length =
        (bs.map fun b => ((b.filter fun s => s.tgt ≠ pad).map (·.loss)).sum / ((b.filter fun s => s.tgt ≠ pad).length : ℚ)).sum) := by
  have hlen : (bs.length : ℚ) ≠ 0 := by
    have := List.length_pos_of_ne_nil h
    positivity
  refine ⟨_, _, evalModel_eq pad bs h, ?_, ?_, ?_⟩
  · rw [div_mul_cancel₀ _ hlen]
    congr 1
    apply List.map_congr_left
    intro b _
    unfold batchAcc
    by_cases hb : real pad b = []
    · rw [if_pos hb, if_neg]
      rw [← real_ne_nil]
      exact fun h' => h' hb
    · rw [if_neg hb, if_pos ((real_ne_nil pad b).1 hb)]
      unfold real
      rw [List.filter_filter]
      congr 4
      funext s
      simp [and_comm]
  · have hiff : (∃ b ∈ bs, ∀ s ∈ b, s.tgt = pad) ↔ ¬ ∀ b ∈ bs, real pad b ≠ [] := by
      simp only [real_ne_nil]
      push Not
      rfl
    rw [hiff]
    split_ifs with hc
    · exact ⟨fun h' => (by cases h'), fun h' => absurd hc h'⟩
    · exact ⟨fun _ => hc, fun _ => rfl⟩
  · intro hall
    rw [if_pos (fun b hb => (real_ne_nil pad b).2 (hall b hb))]
    exact ⟨_, rfl, div_mul_cancel₀ _ hlen⟩

/-- **C121** (equal batches). If all batches have the same positive number of real targets, the accuracy is the fraction of right predictions
among all real targets. -/
theorem C121_equal (pad : ℕ) (bs : List (List Sample)) (h : bs ≠ []) (c : ℕ) (hc : 0 < c)
    (hall : ∀ b ∈ bs, (b.filter fun s => s.tgt ≠ pad).length = c) :
    ∃ l a, evalModel pad bs = .ok (l, a) ∧
      a * (bs.flatten.filter fun s => s.tgt ≠ pad).length = (bs.flatten.filter fun s => s.tgt ≠ pad ∧ s.out = s.tgt).length := by
  obtain ⟨l, a, h1, h2, -⟩ := C121_average pad bs h
  refine ⟨l, a, h1, ?_⟩
  have hsum : (bs.map fun b => if ∃ s ∈ b, s.tgt ≠ pad then
        ((b.filter fun s => s.tgt ≠ pad ∧ s.out = s.tgt).length : ℚ) / ((b.filter fun s => s.tgt ≠ pad).length : ℚ) else 1).sum =
      ((bs.flatten.filter fun s => s.tgt ≠ pad ∧ s.out = s.tgt).length : ℚ) / c ∧
      (bs.flatten.filter fun s => s.tgt ≠ pad).length = bs.length * c := by
    clear h1 h2 h
    induction bs with
    | nil => simp
    | cons b bs ih =>
      obtain ⟨ih1, ih2⟩ := ih fun b' hb' => hall b' (List.mem_cons_of_mem _ hb')
      have hb := hall b List.mem_cons_self
      constructor
      · rw [List.map_cons, List.sum_cons, ih1, if_pos, hb, List.flatten_cons, List.filter_append, List.length_append, Nat.cast_add, add_div]
        rw [← real_ne_nil]
        unfold real
        intro h'
        rw [h'] at hb
        simp at hb
        omega
      · rw [List.flatten_cons, List.filter_append, List.length_append, ih2, hb, List.length_cons, Nat.add_mul]; omega
  have hc' : (c : ℚ) ≠ 0 := by positivity
  rw [hsum.2, Nat.cast_mul, ← mul_assoc, h2, hsum.1, div_mul_cancel₀ _ hc']

/-- Three samples in batches of two: one wrong prediction in a batch of its own weighs as much as two right ones, so the accuracy is 1/2 although
two of three predictions are right. -/
example : evalModel 0 [[⟨1, 0, 1⟩, ⟨2, 0, 2⟩], [⟨1, 3, 2⟩]] = .ok (.num (3 / 2), 1 / 2) := by decide +kernel

/-- A batch of padding only: accuracy 1, loss not a number. -/
example : evalModel 0 [[⟨1, 3, 0⟩]] = .ok (.nan, 1) := by decide +kernel

/-- An instance of `C121_equal`. -/
example : ∃ l a, evalModel 0 [[⟨1, 0, 1⟩, ⟨5, 0, 0⟩], [⟨1, 3, 2⟩, ⟨5, 0, 0⟩]] = .ok (l, a) ∧ a * 2 = 1 := by
  obtain ⟨l, a, h1, h2⟩ := C121_equal 0 [[⟨1, 0, 1⟩, ⟨5, 0, 0⟩], [⟨1, 3, 2⟩, ⟨5, 0, 0⟩]] (by simp) 1 (by decide) (by decide)
  exact ⟨l, a, h1, by simpa using h2⟩

/-- The model of the last epoch is returned although the second was best. -/
example : trainMaestro 0 (· + 1) (fun k : ℕ => ([[⟨0, ((k : ℚ) - 1) * ((k : ℚ) - 1), 1⟩]], k)) 0 ((3 : ℕ) : ℤ) = .ok 3 := by
  have h := (C120_not_best (fun k => ((k : ℚ) - 1) * ((k : ℚ) - 1)) 3).1
  exact h

/-- A loader of padding only: the accuracy counts as 1, so the last model is returned. -/
example : trainMaestro 0 (· + 1) (fun k : ℕ => ([[⟨0, 1, 0⟩]], k)) 0 2 = .ok 2 := by decide +kernel

example : trainMaestro 0 (· + 1) (fun k : ℕ => ([[⟨0, 1, 0⟩]], k)) 0 (-1) = .error .unboundLocalError := by decide +kernel

end Verif.Maestro
