import Verif.DVEmb.GroundTruthModel
import Verif.Metric.LDSProps
import Verif.Script.ExperimentProps
import Verif.Base.Blocks
import Mathlib.Algebra.BigOperators.Group.List.Basic
import Mathlib.Algebra.Module.BigOperators
import Mathlib.Algebra.CharZero.Defs
import Mathlib.Data.List.Induction
import Mathlib.Data.List.Nodup
import Mathlib.Data.List.Dedup
import Mathlib.Data.List.GetD
import Mathlib.Tactic.Abel
import Mathlib.Tactic.Module
import Mathlib.Tactic.FieldSimp
import Mathlib.Tactic.LinearCombination

/-!
# C194, C195: the leave-one-out ground truth of the DVEmb example
-/

namespace Verif.LooTruth

section Train

variable {K V : Type} [Field K] [AddCommGroup V] [Module K V]

/-! ### Helper lemmas -/

theorem filter_ne_self {e : ℕ} {B : List ℕ} (h : e ∉ B) : B.filter (· ≠ e) = B := by
  rw [List.filter_eq_self]
  intro a ha
  rw [decide_eq_true_iff]
  rintro rfl
  exact h ha

theorem looStep_other (lr : K) (g : ℕ → V → V) {e : ℕ} {B : List ℕ} (h : e ∉ B) (hB : B ≠ []) (θ : V) :
    looStep lr g (some e) θ B = looStep lr g none θ B := by
  simp only [looStep, filter_ne_self h, if_neg hB]

theorem foldl_other (lr : K) (g : ℕ → V → V) {e : ℕ} {l : List (List ℕ)} (h : ∀ B ∈ l, e ∉ B ∧ B ≠ []) (θ : V) :
    l.foldl (looStep lr g (some e)) θ = l.foldl (looStep lr g none) θ := by
  induction l generalizing θ with
  | nil => rfl
  | cons B l ih =>
    rw [List.foldl_cons, List.foldl_cons, looStep_other lr g (h B (by simp)).1 (h B (by simp)).2]
    exact ih (fun C hC => h C (by simp [hC])) _

theorem batch_ne_nil {bs : ℕ} (hbs : 0 < bs) {xs : List ℕ} {B : List ℕ} (hB : B ∈ batches bs xs) : B ≠ [] := by
  obtain ⟨b, hb, rfl⟩ := List.mem_map.1 hB
  have := (lt_numBatches_iff hbs).1 (List.mem_range.1 hb)
  intro h
  have := congrArg List.length h
  rw [length_batchAt] at this
  simp at this
  omega

theorem mem_of_batch {bs : ℕ} {xs : List ℕ} {B : List ℕ} (hB : B ∈ batches bs xs) {i : ℕ} (hi : i ∈ B) : i ∈ xs := by
  obtain ⟨b, -, rfl⟩ := List.mem_map.1 hB
  exact List.mem_of_mem_drop (List.mem_of_mem_take hi)

/-! ### Properties -/

/-- **C194** (the run without a sample). Training without sample `e` is plain SGD on the very batches of the full training, with `e` taken out of them and without the
batches in which nothing is left; in particular the other samples keep their batches and their order. -/
theorem C194_run (lr : K) (g : ℕ → V → V) (bs : ℕ) (orders : List (List ℕ)) (e : ℕ) (θ : V) :
    trainModel lr g bs orders (some e) θ =
      (((orders.flatMap (batches bs)).map fun B => B.filter (· ≠ e)).filter (· ≠ [])).foldl (fun θ B => θ - lr • ((B.length : K)⁻¹ • (B.map fun i => g i θ).sum)) θ ∧
    trainModel lr g bs orders none θ = (orders.flatMap (batches bs)).foldl (fun θ B => θ - lr • ((B.length : K)⁻¹ • (B.map fun i => g i θ).sum)) θ := by
  refine ⟨?_, rfl⟩
  unfold trainModel
  generalize orders.flatMap (batches bs) = l
  induction l generalizing θ with
  | nil => rfl
  | cons B l ih =>
    rw [List.foldl_cons, ih, List.map_cons]
    by_cases h : B.filter (· ≠ e) = []
    · rw [List.filter_cons_of_neg (by simpa using h)]
      simp only [looStep, if_pos h]
    · rw [List.filter_cons_of_pos (by simpa using h), List.foldl_cons]
      simp only [looStep, if_neg h, sgd, meanGrad]

/-- **C194** (samples never seen). For a sample that is in no epoch the row of the ground truth is zero. -/
theorem C194_absent (lr : K) (g : ℕ → V → V) (bs : ℕ) (hbs : 0 < bs) (orders : List (List ℕ)) (e : ℕ) (he : ∀ o ∈ orders, e ∉ o) (θ : V)
    (loss : ℕ → V → K) (tests : ℕ) :
    trainModel lr g bs orders (some e) θ = trainModel lr g bs orders none θ ∧
      looLosses lr g bs orders θ loss tests [e] = [List.replicate tests 0] := by
  have h : trainModel lr g bs orders (some e) θ = trainModel lr g bs orders none θ := by
    apply foldl_other
    intro B hB
    obtain ⟨o, ho, hB'⟩ := List.mem_flatMap.1 hB
    exact ⟨fun hi => he o ho (mem_of_batch hB' hi), batch_ne_nil hbs hB'⟩
  refine ⟨h, ?_⟩
  simp [looLosses, h]

/-- **C194** (the first use). Up to the first batch with the sample both trainings agree.  In that batch, of `n` different samples, the parameters move apart by the
learning rate times `(gₑ - ḡ) / (n - 1)`, `ḡ` being the mean gradient of the whole batch; if the sample is alone in its batch, the training without it makes no step. -/
theorem C194_first [CharZero K] (lr : K) (g : ℕ → V → V) (pre : List (List ℕ)) (B : List ℕ) (e : ℕ) (hpre : ∀ C ∈ pre, e ∉ C ∧ C ≠ []) (he : e ∈ B) (hB : B.Nodup) (θ : V) :
    pre.foldl (looStep lr g (some e)) θ = pre.foldl (looStep lr g none) θ ∧
    (2 ≤ B.length → (pre ++ [B]).foldl (looStep lr g (some e)) θ - (pre ++ [B]).foldl (looStep lr g none) θ =
      (lr / ((B.length : K) - 1)) • (g e (pre.foldl (looStep lr g none) θ) - (B.length : K)⁻¹ • (B.map fun i => g i (pre.foldl (looStep lr g none) θ)).sum)) ∧
    (B.length = 1 → (pre ++ [B]).foldl (looStep lr g (some e)) θ = pre.foldl (looStep lr g none) θ) := by
  have h0 := foldl_other lr g hpre θ
  have hf : B.filter (· ≠ e) = B.erase e := by rw [hB.erase_eq_filter]; congr 1; funext x; rw [Bool.eq_iff_iff]; simp
  have hlen : (B.erase e).length = B.length - 1 := List.length_erase_of_mem he
  refine ⟨h0, ?_, ?_⟩
  · intro h2
    rw [List.foldl_append, List.foldl_append, h0]
    generalize pre.foldl (looStep lr g none) θ = φ
    have hne : B.erase e ≠ [] := fun h => by rw [h] at hlen; simp at hlen; omega
    have hsum : (B.map fun i => g i φ).sum = g e φ + ((B.erase e).map fun i => g i φ).sum := by
      simpa using ((List.perm_cons_erase he).map fun i => g i φ).sum_eq
    simp only [List.foldl_cons, List.foldl_nil, looStep, hf, if_neg hne, sgd, meanGrad, hlen, hsum]
    generalize ((B.erase e).map fun i => g i φ).sum = S
    generalize g e φ = G
    have hn : (B.length : K) ≠ 0 := Nat.cast_ne_zero.2 (by omega)
    have hn1 : (B.length : K) - 1 ≠ 0 := by
      rw [← Nat.cast_one, ← Nat.cast_sub (by omega)]
      exact Nat.cast_ne_zero.2 (by omega)
    rw [Nat.cast_sub (by omega), Nat.cast_one]
    match_scalars <;> field_simp <;> ring
  · intro h1
    rw [List.foldl_append, h0]
    have : B.erase e = [] := List.length_eq_zero_iff.1 (by omega)
    simp only [List.foldl_cons, List.foldl_nil, looStep, hf, this, if_true]

/-- **C194** (balance). Over the samples of a batch in which they are used for the first time, the parameter changes of their removals add up to zero: leaving samples out of
the mean is not the same as giving their losses weight zero (C142), where the changes add up to the step itself. -/
theorem C194_balance [CharZero K] (lr : K) (g : ℕ → V → V) (pre : List (List ℕ)) (B : List ℕ) (hpre : ∀ C ∈ pre, C ≠ [] ∧ ∀ e ∈ B, e ∉ C) (hB : B.Nodup) (h2 : 2 ≤ B.length) (θ : V) :
    (B.map fun e => (pre ++ [B]).foldl (looStep lr g (some e)) θ - (pre ++ [B]).foldl (looStep lr g none) θ).sum = 0 ∧
    (B.map fun e => lr • ((B.length : K)⁻¹ • g e (pre.foldl (looStep lr g none) θ))).sum =
      pre.foldl (looStep lr g none) θ - (pre ++ [B]).foldl (looStep lr g none) θ := by
  have hn : (B.length : K) ≠ 0 := Nat.cast_ne_zero.2 (by omega)
  constructor
  · rw [List.map_congr_left fun e he => (C194_first lr g pre B e (fun C hC => ⟨(hpre C hC).2 e he, (hpre C hC).1⟩) he hB θ).2.1 h2]
    generalize pre.foldl (looStep lr g none) θ = φ
    have key : ∀ (l : List ℕ) (c : K) (m : V), (l.map fun e => c • (g e φ - m)).sum = c • ((l.map fun e => g e φ).sum - (l.length : K) • m) := by
      intro l c m
      induction l with
      | nil => simp
      | cons a l ih =>
        simp only [List.map_cons, List.sum_cons, ih, List.length_cons, Nat.cast_add, Nat.cast_one]
        module
    rw [key, smul_inv_smul₀ hn, sub_self, smul_zero]
  · rw [List.foldl_append]
    generalize pre.foldl (looStep lr g none) θ = φ
    have key : ∀ l : List ℕ, (l.map fun e => lr • ((B.length : K)⁻¹ • g e φ)).sum = lr • ((B.length : K)⁻¹ • (l.map fun e => g e φ).sum) := by
      intro l
      induction l with
      | nil => simp
      | cons a l ih => simp only [List.map_cons, List.sum_cons, ih, smul_add]
    rw [key]
    simp only [List.foldl_cons, List.foldl_nil, looStep, sgd, meanGrad]
    abel

/-- Not the same as training on the data set without the sample: without sample 0 the batches of four samples are `[1]` and `[2, 3]` here, not `[1, 2]` and `[3]`. -/
example : (((batches 2 [0, 1, 2, 3]).map fun B => B.filter (· ≠ 0)).filter (· ≠ [])) = [[1], [2, 3]] ∧ batches 2 [1, 2, 3] = [[1, 2], [3]] := by decide

/-- Losses `(θ - i)² / 2`, learning rate 1/2: with both samples the mean of 0 and 2 is approached, without sample 0 sample 2. -/
example : trainModel (1 / 2 : ℚ) (fun i θ => θ - (i : ℚ)) 2 [[0, 2]] none 0 = 1 / 2 ∧ trainModel (1 / 2 : ℚ) (fun i θ => θ - (i : ℚ)) 2 [[0, 2]] (some 0) 0 = 1 := by
  decide +kernel

end Train

section Select

/-! ### Helper lemmas -/

/-- The indices with a label, in increasing order. -/
def indicesOf (labels : List ℕ) (l : ℕ) : List ℕ := (List.range labels.length).filter fun i : ℕ => labels[i]? = some l

theorem indicesOf_append (labels : List ℕ) (x l : ℕ) :
    indicesOf (labels ++ [x]) l = indicesOf labels l ++ if x = l then [labels.length] else [] := by
  unfold indicesOf
  rw [List.length_append, List.length_singleton, List.range_succ, List.filter_append]
  congr 1
  · apply List.filter_congr
    intro i hi
    rw [List.getElem?_append_left (List.mem_range.1 hi)]
  · by_cases h : x = l <;> simp [h]

theorem labelDict_append (labels : List ℕ) (x : ℕ) : labelDict (labels ++ [x]) = addLabel (labelDict labels) (x, labels.length) := by
  simp [labelDict, List.zipIdx_append]

/-- The dictionary: the labels without repetition in the order of their first appearance, each with its indices. -/
theorem labelDict_eq (labels : List ℕ) : labelDict labels = (labels.reverse.dedup.reverse).map fun l => (l, indicesOf labels l) := by
  induction labels using List.reverseRecOn with
  | nil => rfl
  | append_singleton labels x ih =>
    rw [labelDict_append, ih, List.reverse_append, List.reverse_singleton, List.singleton_append]
    unfold addLabel
    by_cases hx : x ∈ labels
    · rw [List.dedup_cons_of_mem (by simpa using hx), if_pos]
      · rw [List.map_map]
        apply List.map_congr_left
        intro l _
        rw [indicesOf_append]
        by_cases h : l = x
        · simp [h]
        · simp [h, Ne.symm h]
      · simpa using hx
    · rw [List.dedup_cons_of_notMem (by simpa using hx), if_neg]
      · rw [List.reverse_cons, List.map_append]
        congr 1
        · apply List.map_congr_left
          intro l hl
          rw [indicesOf_append, if_neg, List.append_nil]
          rintro rfl
          exact hx (by simpa using hl)
        · rw [List.map_singleton, indicesOf_append, if_pos rfl]
          have : indicesOf labels x = [] := by
            unfold indicesOf
            rw [List.filter_eq_nil_iff]
            intro i _ h
            exact hx (List.mem_of_getElem? (of_decide_eq_true h))
          rw [this, List.nil_append]
      · simpa using hx

theorem mem_labelDict {labels : List ℕ} {p : ℕ × List ℕ} : p ∈ labelDict labels ↔ p.1 ∈ labels ∧ p.2 = indicesOf labels p.1 := by
  rw [labelDict_eq, List.mem_map]
  constructor
  · rintro ⟨l, hl, rfl⟩
    exact ⟨by simpa using hl, rfl⟩
  · rintro ⟨h, h'⟩
    exact ⟨p.1, by simpa using h, Prod.ext rfl h'.symm⟩

theorem labelDict_length (labels : List ℕ) : (labelDict labels).length = labels.dedup.length := by
  rw [labelDict_eq, List.length_map, List.length_reverse]
  apply List.Perm.length_eq
  rw [List.perm_ext_iff_of_nodup (List.nodup_dedup _) (List.nodup_dedup _)]
  simp

theorem labelDict_keys_nodup (labels : List ℕ) : ((labelDict labels).map Prod.fst).Nodup := by
  rw [labelDict_eq, List.map_map]
  have : (Prod.fst ∘ fun l => (l, indicesOf labels l)) = id := rfl
  rw [this, List.map_id, List.nodup_reverse]
  exact List.nodup_dedup _

theorem mem_indicesOf {labels : List ℕ} {l i : ℕ} : i ∈ indicesOf labels l ↔ labels[i]? = some l := by
  unfold indicesOf
  rw [List.mem_filter, List.mem_range, decide_eq_true_iff]
  exact ⟨fun h => h.2, fun h => ⟨(List.getElem?_eq_some_iff.1 h).1, h⟩⟩

theorem indicesOf_nodup (labels : List ℕ) (l : ℕ) : (indicesOf labels l).Nodup := List.nodup_range.filter _

theorem indicesOf_length (labels : List ℕ) (l : ℕ) : (indicesOf labels l).length = labels.count l := by
  induction labels using List.reverseRecOn with
  | nil => rfl
  | append_singleton labels x ih =>
    rw [indicesOf_append, List.length_append, ih, List.count_append]
    by_cases h : x = l <;> simp [h]

theorem sampleClass_mapM_ok (k : ℕ) (draw : ℕ → List ℕ) (d : List (ℕ × List ℕ)) (h : ∀ p ∈ d, k ≤ p.2.length) :
    d.mapM (sampleClass k draw) = .ok (d.map fun p => (draw p.1).map fun j => p.2.getD j 0) := by
  induction d with
  | nil => rfl
  | cons p d ih =>
    rw [List.mapM_cons, ih fun q hq => h q (by simp [hq])]
    unfold sampleClass
    rw [if_neg (not_lt.2 (h p (by simp)))]
    rfl

theorem sampleClass_mapM_err (k : ℕ) (draw : ℕ → List ℕ) (d : List (ℕ × List ℕ)) (h : ∃ p ∈ d, p.2.length < k) :
    d.mapM (sampleClass k draw) = .error .valueError := by
  induction d with
  | nil => simp at h
  | cons p d ih =>
    rw [List.mapM_cons]
    by_cases hp : p.2.length < k
    · rw [show sampleClass k draw p = .error .valueError by unfold sampleClass; rw [if_pos hp]]
      rfl
    · rw [show sampleClass k draw p = .ok ((draw p.1).map fun j => p.2.getD j 0) by unfold sampleClass; rw [if_neg hp],
        ih (by obtain ⟨q, hq, hlt⟩ := h; rcases List.mem_cons.1 hq with rfl | hq; exacts [absurd hlt hp, ⟨q, hq, hlt⟩])]
      rfl

/-! ### Properties -/

/-- The draws of all classes together. -/
def drawn (labels : List ℕ) (draw : ℕ → List ℕ) : List ℕ := ((labelDict labels).map fun p => (draw p.1).map fun j => p.2.getD j 0).flatten

theorem drawn_length {labels : List ℕ} {num : ℕ} {draw : ℕ → List ℕ} {pick : ℕ → ℕ × ℕ} (h : Draws labels num draw pick) :
    (drawn labels draw).length = labels.dedup.length * (num / labels.dedup.length) := by
  unfold drawn
  rw [List.length_flatten, List.map_map]
  have : ∀ p ∈ labelDict labels, (List.length ∘ fun p : ℕ × List ℕ => (draw p.1).map fun j => p.2.getD j 0) p = num / labels.dedup.length := by
    intro p hp
    simp [h.length p hp, labelDict_length]
  rw [List.map_congr_left this, List.map_const', List.sum_replicate, labelDict_length, smul_eq_mul]

theorem drawn_mem {labels : List ℕ} {num : ℕ} {draw : ℕ → List ℕ} {pick : ℕ → ℕ × ℕ} (h : Draws labels num draw pick) {p : ℕ × List ℕ}
    (hp : p ∈ labelDict labels) {i : ℕ} (hi : i ∈ (draw p.1).map fun j => p.2.getD j 0) : labels[i]? = some p.1 := by
  obtain ⟨j, hj, rfl⟩ := List.mem_map.1 hi
  have hlt := h.lt p hp j hj
  rw [← mem_indicesOf, ← (mem_labelDict.1 hp).2, List.getD_eq_getElem _ _ hlt]
  exact List.getElem_mem hlt

theorem drawn_class_nodup {labels : List ℕ} {num : ℕ} {draw : ℕ → List ℕ} {pick : ℕ → ℕ × ℕ} (h : Draws labels num draw pick) {p : ℕ × List ℕ}
    (hp : p ∈ labelDict labels) : ((draw p.1).map fun j => p.2.getD j 0).Nodup := by
  apply List.Nodup.map_on _ (h.nodup p hp)
  intro a ha b hb hab
  have hla := h.lt p hp a ha
  have hlb := h.lt p hp b hb
  rw [List.getD_eq_getElem _ _ hla, List.getD_eq_getElem _ _ hlb] at hab
  have hn : p.2.Nodup := (mem_labelDict.1 hp).2 ▸ indicesOf_nodup _ _
  exact (hn.getElem_inj_iff).1 hab

theorem drawn_nodup {labels : List ℕ} {num : ℕ} {draw : ℕ → List ℕ} {pick : ℕ → ℕ × ℕ} (h : Draws labels num draw pick) : (drawn labels draw).Nodup := by
  unfold drawn
  rw [List.nodup_flatten]
  constructor
  · intro l hl
    obtain ⟨p, hp, rfl⟩ := List.mem_map.1 hl
    exact drawn_class_nodup h hp
  · have hk := labelDict_keys_nodup labels
    rw [List.Nodup, List.pairwise_map] at hk
    rw [List.pairwise_map]
    refine List.Pairwise.imp_of_mem ?_ hk
    intro p q hp hq hpq i hi hi'
    have h1 := drawn_mem h hp hi
    have h2 := drawn_mem h hq hi'
    rw [h1] at h2
    exact hpq (Option.some_inj.1 h2)

theorem drawn_count {labels : List ℕ} {num : ℕ} {draw : ℕ → List ℕ} {pick : ℕ → ℕ × ℕ} (h : Draws labels num draw pick) {l : ℕ} (hl : l ∈ labels) :
    (drawn labels draw).countP (fun i => labels[i]? = some l) = num / labels.dedup.length := by
  unfold drawn
  rw [List.countP_flatten, List.map_map]
  have hk := labelDict_keys_nodup labels
  have key : ∀ d : List (ℕ × List ℕ), (∀ p ∈ d, p ∈ labelDict labels) → (d.map Prod.fst).Nodup →
      (d.map ((List.countP fun i => decide (labels[i]? = some l)) ∘ fun p : ℕ × List ℕ => (draw p.1).map fun j => p.2.getD j 0)).sum
        = if l ∈ d.map Prod.fst then num / labels.dedup.length else 0 := by
    intro d hd hn
    induction d with
    | nil => rfl
    | cons p d ih =>
      rw [List.map_cons, List.sum_cons, ih (fun q hq => hd q (by simp [hq])) (by rw [List.map_cons, List.nodup_cons] at hn; exact hn.2)]
      rw [List.map_cons, List.nodup_cons] at hn
      have hp := hd p (by simp)
      by_cases hpl : p.1 = l
      · rw [if_neg (by rw [← hpl]; exact hn.1), if_pos (by simp [hpl])]
        rw [Function.comp_apply, List.countP_eq_length.2, List.length_map, h.length p hp, labelDict_length, add_zero]
        intro i hi
        rw [decide_eq_true_iff, ← hpl]
        exact drawn_mem h hp hi
      · rw [Function.comp_apply, List.countP_eq_zero.2, zero_add]
        · congr 1
          simp [Ne.symm hpl]
        · intro i hi h'
          rw [decide_eq_true_iff, drawn_mem h hp hi] at h'
          exact hpl (Option.some_inj.1 h')
  rw [key _ (fun p hp => hp) hk, if_pos]
  exact List.mem_map.2 ⟨(l, indicesOf labels l), mem_labelDict.2 ⟨hl, rfl⟩, rfl⟩

/-- **C195** (errors). The selection of `num` samples succeeds exactly if there is a training sample and every class has at least `num` divided by the number of classes,
rounded down; otherwise it is a `ZeroDivisionError` or a `ValueError`. -/
theorem C195_errors (labels : List ℕ) (num : ℕ) (draw : ℕ → List ℕ) (pick : ℕ → ℕ × ℕ) :
    (labels = [] → select labels num draw pick = .error .zeroDivisionError) ∧
    (labels ≠ [] → (∃ l ∈ labels, labels.count l < num / labels.dedup.length) → select labels num draw pick = .error .valueError) ∧
    (labels ≠ [] → (∀ l ∈ labels, num / labels.dedup.length ≤ labels.count l) → ∃ out, select labels num draw pick = .ok out) := by
  have hpos : labels ≠ [] → labels.dedup.length ≠ 0 := fun h h' => by
    obtain ⟨a, ha⟩ := List.exists_mem_of_ne_nil _ h
    have := List.mem_dedup.2 ha
    rw [List.length_eq_zero_iff.1 h'] at this
    simp at this
  refine ⟨?_, ?_, ?_⟩
  · rintro rfl
    rfl
  · rintro hne ⟨l, hl, hlt⟩
    unfold select
    simp only [bind, Except.bind, pure, Except.pure, throw, throwThe, MonadExceptOf.throw, labelDict_length, if_neg (hpos hne)]
    rw [sampleClass_mapM_err]
    exact ⟨(l, indicesOf labels l), mem_labelDict.2 ⟨hl, rfl⟩, by simpa [indicesOf_length] using hlt⟩
  · intro hne h
    unfold select
    simp only [bind, Except.bind, pure, Except.pure, throw, throwThe, MonadExceptOf.throw, labelDict_length, if_neg (hpos hne)]
    rw [sampleClass_mapM_ok]
    · exact ⟨_, rfl⟩
    · intro p hp
      obtain ⟨h1, h2⟩ := mem_labelDict.1 hp
      rw [h2, indicesOf_length]
      exact h p.1 h1

/-- **C195** (the selection). The selection has exactly `num` entries, all of them indices of training samples, and every class of the training set is there at least `num` divided
by the number of classes, rounded down, times. If the number of classes divides `num`, no sample is selected twice and every class is there equally often. -/
theorem C195_selected (labels : List ℕ) (num : ℕ) (draw : ℕ → List ℕ) (pick : ℕ → ℕ × ℕ) (h : Draws labels num draw pick) (out : List ℕ)
    (hout : select labels num draw pick = .ok out) :
    out.length = num ∧ (∀ i ∈ out, i < labels.length) ∧
    (∀ l ∈ labels, num / labels.dedup.length ≤ out.countP fun i => labels[i]? = some l) ∧
    (labels.dedup.length ∣ num → out.Nodup ∧ ∀ l ∈ labels, (out.countP fun i => labels[i]? = some l) = num / labels.dedup.length) := by
  have hd : labels.dedup.length ≠ 0 := by
    intro h0
    unfold select at hout
    simp only [bind, Except.bind, throw, throwThe, MonadExceptOf.throw, labelDict_length, if_pos h0] at hout
    exact absurd hout (by simp)
  have hex : out = drawn labels draw ++ (List.range (num - (drawn labels draw).length)).map fun t : ℕ => fill (labelDict labels) (pick t) := by
    unfold select at hout
    simp only [bind, Except.bind, pure, Except.pure, throw, throwThe, MonadExceptOf.throw, labelDict_length, if_neg hd] at hout
    by_cases hc : ∃ p ∈ labelDict labels, p.2.length < num / labels.dedup.length
    · rw [sampleClass_mapM_err _ _ _ hc] at hout
      exact absurd hout (by simp)
    · rw [sampleClass_mapM_ok _ _ _ fun p hp => not_lt.1 fun hlt => hc ⟨p, hp, hlt⟩] at hout
      exact (Except.ok.inj hout).symm
  have hlen := drawn_length h
  have hle : labels.dedup.length * (num / labels.dedup.length) ≤ num := Nat.mul_div_le _ _
  refine ⟨?_, ?_, ?_, ?_⟩
  · rw [hex, List.length_append, List.length_map, List.length_range]
    omega
  · intro i hi
    rw [hex, List.mem_append] at hi
    rcases hi with hi | hi
    · obtain ⟨l, hl, hi⟩ := List.mem_flatten.1 hi
      obtain ⟨p, hp, rfl⟩ := List.mem_map.1 hl
      exact (List.getElem?_eq_some_iff.1 (drawn_mem h hp hi)).1
    · obtain ⟨t, -, rfl⟩ := List.mem_map.1 hi
      have h1 := h.pick_lt t
      have h2 := h.pick_lt' t
      unfold fill
      rw [List.getD_eq_getElem _ _ h2]
      rw [List.getD_eq_getElem _ _ h1] at h2
      have hm : (labelDict labels)[(pick t).1] ∈ labelDict labels := List.getElem_mem h1
      have h3 := (mem_labelDict.1 hm).2
      have : ((labelDict labels).getD (pick t).1 (0, [])).2[(pick t).2]'(by rw [List.getD_eq_getElem _ _ h1]; exact h2) ∈ indicesOf labels (labelDict labels)[(pick t).1].1 := by
        rw [← h3]
        simp only [List.getD_eq_getElem _ _ h1]
        exact List.getElem_mem _
      exact (List.getElem?_eq_some_iff.1 (mem_indicesOf.1 this)).1
  · intro l hl
    rw [hex, List.countP_append, drawn_count h hl]
    omega
  · intro hdvd
    have h0 : num - (drawn labels draw).length = 0 := by rw [hlen, Nat.mul_div_cancel' hdvd, Nat.sub_self]
    rw [h0, List.range_zero, List.map_nil, List.append_nil] at hex
    rw [hex]
    exact ⟨drawn_nodup h, fun l hl => drawn_count h hl⟩

/-- **C195** (repetitions). If the number of classes does not divide the number of samples asked for, and every class gets a share, there are draws for which a sample
is selected twice. -/
theorem C195_repeats (labels : List ℕ) (num : ℕ) (hl : labels ≠ []) (hdvd : ¬ labels.dedup.length ∣ num) (hle : labels.dedup.length ≤ num)
    (hc : ∀ l ∈ labels, num / labels.dedup.length ≤ labels.count l) :
    ∃ draw pick out, Draws labels num draw pick ∧ select labels num draw pick = .ok out ∧ ¬ out.Nodup := by
  have hd : labels.dedup.length ≠ 0 := by
    obtain ⟨a, ha⟩ := List.exists_mem_of_ne_nil _ hl
    exact Nat.pos_iff_ne_zero.1 (List.length_pos_of_mem (List.mem_dedup.2 ha))
  have hk : 0 < num / labels.dedup.length := Nat.div_pos hle (Nat.pos_of_ne_zero hd)
  have hcl : ∀ p ∈ labelDict labels, num / labels.dedup.length ≤ p.2.length := by
    intro p hp
    obtain ⟨h1, h2⟩ := mem_labelDict.1 hp
    rw [h2, indicesOf_length]
    exact hc _ h1
  have hD : Draws labels num (fun _ => List.range (num / labels.dedup.length)) (fun _ => (0, 0)) := by
    refine ⟨fun p _ => by rw [List.length_range, labelDict_length], fun p _ => List.nodup_range, fun p hp j hj => ?_, fun t => ?_, fun t => ?_⟩
    · exact lt_of_lt_of_le (List.mem_range.1 hj) (hcl p hp)
    · rw [labelDict_length]; exact Nat.pos_of_ne_zero hd
    · have h0 : 0 < (labelDict labels).length := by rw [labelDict_length]; exact Nat.pos_of_ne_zero hd
      rw [List.getD_eq_getElem _ _ h0]
      exact lt_of_lt_of_le hk (hcl _ (List.getElem_mem h0))
  have h0 : 0 < (labelDict labels).length := by rw [labelDict_length]; exact Nat.pos_of_ne_zero hd
  have hsel : select labels num (fun _ => List.range (num / labels.dedup.length)) (fun _ => (0, 0)) =
      .ok (drawn labels (fun _ => List.range (num / labels.dedup.length)) ++
        (List.range (num - (drawn labels (fun _ => List.range (num / labels.dedup.length))).length)).map fun _ : ℕ => fill (labelDict labels) (0, 0)) := by
    unfold select
    simp only [bind, Except.bind, pure, Except.pure, throw, throwThe, MonadExceptOf.throw, labelDict_length, if_neg hd]
    rw [sampleClass_mapM_ok _ _ _ hcl]
    rfl
  refine ⟨_, _, _, hD, hsel, fun hn => ?_⟩
  have hm1 : fill (labelDict labels) (0, 0) ∈ drawn labels (fun _ => List.range (num / labels.dedup.length)) := by
    unfold drawn fill
    refine List.mem_flatten.2 ⟨_, List.mem_map.2 ⟨(labelDict labels)[0], List.getElem_mem h0, rfl⟩, List.mem_map.2 ⟨0, List.mem_range.2 hk, ?_⟩⟩
    simp only [List.getD_eq_getElem _ _ h0]
  have hm2 : fill (labelDict labels) (0, 0) ∈
      (List.range (num - (drawn labels (fun _ => List.range (num / labels.dedup.length))).length)).map fun _ : ℕ => fill (labelDict labels) (0, 0) := by
    refine List.mem_map.2 ⟨0, List.mem_range.2 ?_, rfl⟩
    rw [drawn_length hD]
    have := Nat.mul_div_le num labels.dedup.length
    rcases Nat.lt_or_eq_of_le this with h | h
    · omega
    · exact absurd ⟨_, h.symm⟩ hdvd
  exact (List.nodup_append.1 hn).2.2 _ hm1 _ hm2 rfl

/-- Three classes, four samples asked for: one of each, and one more drawn again, here sample 0 a second time. -/
example : select [0, 1, 1, 2] 4 (fun _ => [0]) (fun _ => (0, 0)) = .ok [0, 1, 3, 0] ∧ Draws [0, 1, 1, 2] 4 (fun _ => [0]) (fun _ => (0, 0)) := by
  refine ⟨by decide, ⟨by decide, by decide, by decide, fun _ => by decide, fun _ => by decide⟩⟩

/-- A class with too few samples. -/
example : select [0, 0, 0, 1] 4 (fun _ => [0, 1]) (fun _ => (0, 0)) = .error .valueError := by decide

end Select

section Evaluate

open Verif.Metric Verif.Experiment

variable {V : Type} [AddCommGroup V] [Module ℝ V]

/-- **C195** (evaluation). Every row of the ground truth is compared with the scores of the sample left out in that row, whatever the selection: if for every test sample the
scores order the selected samples as their leave-one-out effects do, the printed correlation is 1, and not-a-number if for every test sample all effects are equal; with the
opposite order it is -1. -/
theorem C195_evaluate (lr : ℝ) (g : ℕ → V → V) (bs : ℕ) (orders : List (List ℕ)) (θ : V) (loss : ℕ → V → ℝ) (tests rows : ℕ) (selected : List ℕ)
    (hsel : ∀ i ∈ selected, i < rows) (score : ℕ → ℕ → ℝ) (effect : ℕ → ℕ → ℝ)
    (heff : ∀ e t, effect e t = loss t (trainModel lr g bs orders (some e) θ) - loss t (trainModel lr g bs orders none θ)) :
    ((∀ t < tests, ∀ i ∈ selected, ∀ j ∈ selected, score i t < score j t ↔ effect i t < effect j t) →
      evaluate rows tests score selected (looLosses lr g bs orders θ loss tests selected) =
        .ok (if ∃ t < tests, ∃ i ∈ selected, ∃ j ∈ selected, effect i t ≠ effect j t then some 1 else none)) ∧
    ((∀ t < tests, ∀ i ∈ selected, ∀ j ∈ selected, score i t < score j t ↔ effect j t < effect i t) →
      evaluate rows tests score selected (looLosses lr g bs orders θ loss tests selected) =
        .ok (if ∃ t < tests, ∃ i ∈ selected, ∃ j ∈ selected, effect i t ≠ effect j t then some (-1) else none)) := by
  classical
  have key : ∀ c : ℝ, (∀ t < tests, spearman (m := selected.length) (fun r => score selected[r] t) (fun r => effect selected[r] t) =
      if ∃ i ∈ selected, ∃ j ∈ selected, effect i t ≠ effect j t then some c else none) →
      evaluate rows tests score selected (looLosses lr g bs orders θ loss tests selected) =
        .ok (if ∃ t < tests, ∃ i ∈ selected, ∃ j ∈ selected, effect i t ≠ effect j t then some c else none) := by
    intro c hc
    unfold evaluate
    rw [if_neg (by push Not; exact hsel), if_neg (by simp [looLosses])]
    have hrow : ∀ row ∈ looLosses lr g bs orders θ loss tests selected, row.length = tests := by
      intro row hrow
      obtain ⟨e, -, rfl⟩ := List.mem_map.1 hrow
      simp
    rw [if_neg (by rintro ⟨row, hr, hlt⟩; rw [hrow row hr] at hlt; exact lt_irrefl _ hlt)]
    congr 1
    have e1 : ((List.range tests).map fun t : ℕ => spearman (m := selected.length) (fun r => score selected[r] t)
        fun r => ((looLosses lr g bs orders θ loss tests selected).getD r []).getD t 0) =
        (List.range tests).map fun t : ℕ => if ∃ i ∈ selected, ∃ j ∈ selected, effect i t ≠ effect j t then some c else none := by
      apply List.map_congr_left
      intro t ht
      rw [← hc t (List.mem_range.1 ht)]
      congr 1
      funext r
      have ht' := List.mem_range.1 ht
      simp [looLosses, heff, ht']
    rw [e1]
    unfold nanMean
    have e2 : ∀ l : List ℕ, (l.map fun t : ℕ => if ∃ i ∈ selected, ∃ j ∈ selected, effect i t ≠ effect j t then some c else none).filterMap id =
        List.replicate (l.countP fun t => ∃ i ∈ selected, ∃ j ∈ selected, effect i t ≠ effect j t) c := by
      intro l
      induction l with
      | nil => rfl
      | cons t l ih =>
        rw [List.map_cons]
        by_cases h : ∃ i ∈ selected, ∃ j ∈ selected, effect i t ≠ effect j t
        · rw [if_pos h, List.filterMap_cons_some (f := id) (b := c) rfl, ih, List.countP_cons_of_pos (by simpa using h), List.replicate_succ]
        · rw [if_neg h, List.filterMap_cons_none (f := id) rfl, ih, List.countP_cons_of_neg (by simpa using h)]
    rw [e2]
    by_cases h : ∃ t < tests, ∃ i ∈ selected, ∃ j ∈ selected, effect i t ≠ effect j t
    · have hpos : 0 < (List.range tests).countP fun t => decide (∃ i ∈ selected, ∃ j ∈ selected, effect i t ≠ effect j t) := by
        rw [List.countP_pos_iff]
        obtain ⟨t, ht, h'⟩ := h
        exact ⟨t, List.mem_range.2 ht, by simpa using h'⟩
      rw [if_pos h, if_neg (by simp; omega), List.sum_replicate, List.length_replicate, nsmul_eq_mul, mul_div_cancel_left₀]
      exact Nat.cast_ne_zero.2 (by omega)
    · rw [if_neg h, if_pos]
      rw [List.replicate_eq_nil_iff, List.countP_eq_zero]
      intro t ht h'
      exact h ⟨t, List.mem_range.1 ht, by simpa using h'⟩
  have hne : ∀ t, (∃ i ∈ selected, ∃ j ∈ selected, effect i t ≠ effect j t) ↔ ∃ r s : Fin selected.length, effect selected[r] t ≠ effect selected[s] t := by
    intro t
    constructor
    · rintro ⟨i, hi, j, hj, h⟩
      obtain ⟨r, hr, rfl⟩ := List.getElem_of_mem hi
      obtain ⟨s, hs, rfl⟩ := List.getElem_of_mem hj
      exact ⟨⟨r, hr⟩, ⟨s, hs⟩, h⟩
    · rintro ⟨r, s, h⟩
      exact ⟨_, List.getElem_mem r.2, _, List.getElem_mem s.2, h⟩
  have hnone : ∀ t, (¬ ∃ i ∈ selected, ∃ j ∈ selected, effect i t ≠ effect j t) →
      spearman (m := selected.length) (fun r => score selected[r] t) (fun r => effect selected[r] t) = none := by
    intro t h
    by_contra h'
    exact h ((hne t).2 ((C41_defined_iff _ _).1 h').2)
  constructor
  · intro h
    apply key
    intro t ht
    split
    · rename_i hd
      obtain ⟨r, s, hrs⟩ := (hne t).1 hd
      rw [spearman_comm]
      exact (C41_perfect _ _ ⟨r, s, hrs⟩).1 fun i j => (h t ht _ (List.getElem_mem i.2) _ (List.getElem_mem j.2)).symm
    · exact hnone t ‹_›
  · intro h
    apply key
    intro t ht
    split
    · rename_i hd
      obtain ⟨r, s, hrs⟩ := (hne t).1 hd
      rw [spearman_comm]
      exact (C41_perfect _ _ ⟨r, s, hrs⟩).2 fun i j => (h t ht _ (List.getElem_mem j.2) _ (List.getElem_mem i.2)).symm
    · exact hnone t ‹_›

/-- The effects themselves, as scores, satisfy the hypothesis; here sample 1 is left out twice. -/
example (θ : ℝ) : ∃ (effect : ℕ → ℕ → ℝ), (∀ t < 1, ∀ i ∈ [1, 0, 1], ∀ j ∈ [1, 0, 1], effect i t < effect j t ↔ effect i t < effect j t) ∧
    ∀ e t, effect e t = (fun (_ : ℕ) (x : ℝ) => x ^ 2) t (trainModel (1 / 2 : ℝ) (fun i θ => θ - (i : ℝ)) 2 [[0, 1]] (some e) θ) -
      (fun (_ : ℕ) (x : ℝ) => x ^ 2) t (trainModel (1 / 2 : ℝ) (fun i θ => θ - (i : ℝ)) 2 [[0, 1]] none θ) :=
  ⟨_, fun _ _ _ _ _ _ => Iff.rfl, fun _ _ => rfl⟩

end Evaluate

end Verif.LooTruth
