import Verif.Script.ExperimentModel
import Mathlib.Data.List.Induction
import Mathlib.Algebra.Order.Field.Basic
import Mathlib.Tactic.NormNum
import Mathlib.Tactic.Linarith

/-!
# C192, C193: choosing hyper-parameters and the correlation on WikiText-2

The specification of C192: the average over the samples that have a correlation, and the first configuration with the largest positive average.
-/

namespace Verif.Experiment

open Verif.Metric

section Search

variable {K γ : Type} [Field K] [LinearOrder K] [IsStrictOrderedRing K]

/-- **C192** (average). The average is over the test samples that have a correlation: it is the number whose multiple by their number is their sum, and there is
none exactly if no sample has one. -/
theorem C192_average (l : List (Option K)) :
    (nanMean l = none ↔ ∀ x ∈ l, x = none) ∧
      ∀ v, nanMean l = some v → v * (l.filter Option.isSome).length = (l.map fun x => x.getD 0).sum := by
  have hlen : ∀ l : List (Option K), (l.filterMap id).length = (l.filter Option.isSome).length := by
    intro l
    induction l with
    | nil => rfl
    | cons x l ih => cases x <;> simpa using ih
  have hsum : ∀ l : List (Option K), (l.filterMap id).sum = (l.map fun x => x.getD 0).sum := by
    intro l
    induction l with
    | nil => rfl
    | cons x l ih => cases x <;> simpa using ih
  unfold nanMean
  constructor
  · constructor
    · intro h
      split at h
      · rename_i h0
        intro x hx
        cases x with
        | none => rfl
        | some a => exact absurd h0 (List.ne_nil_of_mem (List.mem_filterMap.2 ⟨some a, hx, rfl⟩))
      · exact absurd h (by simp)
    · intro h
      rw [if_pos]
      rw [List.filterMap_eq_nil_iff]
      exact fun x hx => by simpa using h x hx
  · intro v hv
    split at hv
    · exact absurd hv (by simp)
    · rename_i h0
      rw [Option.some_inj] at hv
      rw [← hv, ← hsum, ← hlen, div_mul_cancel₀]
      exact Nat.cast_ne_zero.2 fun h => h0 (List.length_eq_zero_iff.1 h)

/-- The specification of the search: `b` is not below 0 nor below any average, and either it is 0 and no configuration was chosen, or it is positive and `c` is
the first configuration that reaches it. -/
def IsBest (runs : List (γ × List (Option K))) (b : K) (c : Option γ) : Prop :=
  0 ≤ b ∧ (∀ r ∈ runs, ∀ v, nanMean r.2 = some v → v ≤ b) ∧
    ((b = 0 ∧ c = none) ∨ (0 < b ∧ ∃ before r after, runs = before ++ r :: after ∧ c = some r.1 ∧ nanMean r.2 = some b ∧
      ∀ r' ∈ before, ∀ v, nanMean r'.2 = some v → v < b))

omit [IsStrictOrderedRing K] in
/-- **C192** (the search). What is printed for the influence functions is the largest positive average and the first configuration reaching it; 0 and no
configuration if no average is positive. -/
theorem C192_best (runs : List (γ × List (Option K))) : IsBest runs (reportIF runs).1 (reportIF runs).2 := by
  unfold reportIF
  induction runs using List.reverseRecOn with
  | nil => exact ⟨le_refl _, by simp, Or.inl ⟨rfl, rfl⟩⟩
  | append_singleton runs r ih =>
    obtain ⟨h1, h2, h3⟩ := ih
    have e : search (runs ++ [r]) = searchStep (search runs) r := by simp [search]
    rw [e]
    unfold searchStep
    rcases hv : nanMean r.2 with _ | v
    · simp only
      refine ⟨h1, ?_, ?_⟩
      · intro r' hr' w hw
        rcases List.mem_append.1 hr' with h | h
        · exact h2 r' h w hw
        · rw [List.mem_singleton.1 h, hv] at hw
          exact absurd hw (by simp)
      · rcases h3 with h | ⟨hb, before, r', after, e1, e2, e3, e4⟩
        · exact Or.inl h
        · exact Or.inr ⟨hb, before, r', after ++ [r], by rw [e1]; simp, e2, e3, e4⟩
    · simp only
      split
      · rename_i hlt
        refine ⟨(h1.trans_lt hlt).le, ?_, Or.inr ⟨h1.trans_lt hlt, runs, r, [], rfl, rfl, hv, ?_⟩⟩
        · intro r' hr' w hw
          rcases List.mem_append.1 hr' with h | h
          · exact (h2 r' h w hw).trans hlt.le
          · rw [List.mem_singleton.1 h, hv] at hw
            exact (Option.some_inj.1 hw).symm.le
        · exact fun r' hr' w hw => (h2 r' hr' w hw).trans_lt hlt
      · rename_i hlt
        refine ⟨h1, ?_, ?_⟩
        · intro r' hr' w hw
          rcases List.mem_append.1 hr' with h | h
          · exact h2 r' h w hw
          · rw [List.mem_singleton.1 h, hv] at hw
            rw [← Option.some_inj.1 hw]
            exact not_lt.1 hlt
        · rcases h3 with h | ⟨hb, before, r', after, e1, e2, e3, e4⟩
          · exact Or.inl h
          · exact Or.inr ⟨hb, before, r', after ++ [r], by rw [e1]; simp, e2, e3, e4⟩

omit [IsStrictOrderedRing K] in
/-- **C192** (uniqueness). The specification determines the value, and the configuration is missing exactly if no average is positive. -/
theorem C192_unique (runs : List (γ × List (Option K))) (b : K) (c : Option γ) (h : IsBest runs b c) :
    b = (reportIF runs).1 ∧ (c = none ↔ ∀ r ∈ runs, ∀ v, nanMean r.2 = some v → v ≤ 0) := by
  have key : ∀ b b' : K, ∀ c c' : Option γ, IsBest runs b c → IsBest runs b' c' → b ≤ b' := by
    rintro b b' c c' ⟨-, -, h3⟩ ⟨h1', h2', -⟩
    rcases h3 with ⟨h, -⟩ | ⟨-, before, r, after, e1, -, e3, -⟩
    · rw [h]; exact h1'
    · exact h2' r (by rw [e1]; simp) b e3
  refine ⟨le_antisymm (key _ _ _ _ h (C192_best runs)) (key _ _ _ _ (C192_best runs) h), ?_⟩
  obtain ⟨h1, h2, h3⟩ := h
  constructor
  · rintro rfl
    rcases h3 with ⟨h, -⟩ | ⟨-, before, r, after, e1, e2, -, -⟩
    · intro r hr v hv
      rw [← h]
      exact h2 r hr v hv
    · exact absurd e2 (by simp)
  · intro h
    rcases h3 with ⟨-, h'⟩ | ⟨hb, before, r, after, e1, -, e3, -⟩
    · exact h'
    · exact absurd (h r (by rw [e1]; simp) b e3) (not_le.2 hb)

omit [IsStrictOrderedRing K] in
/-- **C192** (RPS). For RPS the same value is printed, but next to it always the last configuration of the list, so that value and configuration belong together
exactly if the last configuration happens to reach the best average. -/
theorem C192_rps (before : List (γ × List (Option K))) (r : γ × List (Option K)) :
    (reportRPS (before ++ [r])).1 = (reportIF (before ++ [r])).1 ∧ (reportRPS (before ++ [r])).2 = some r.1 ∧
      (nanMean r.2 = some (reportRPS (before ++ [r])).1 ↔
        ∃ v, nanMean r.2 = some v ∧ 0 ≤ v ∧ ∀ r' ∈ before, ∀ w, nanMean r'.2 = some w → w ≤ v) := by
  refine ⟨rfl, by simp [reportRPS], ?_⟩
  obtain ⟨h1, h2, h3⟩ := C192_best (before ++ [r])
  constructor
  · intro h
    exact ⟨_, h, h1, fun r' hr' w hw => h2 r' (by simp [hr']) w hw⟩
  · rintro ⟨v, hv, h0, hw⟩
    rw [hv]
    congr 1
    refine le_antisymm (h2 r (by simp) v hv) ?_
    rcases h3 with ⟨h, -⟩ | ⟨-, b', r', a', e1, -, e3, -⟩
    · exact h.le.trans h0
    · have hm : r' ∈ before ++ [r] := by rw [e1]; simp
      rcases List.mem_append.1 hm with h | h
      · exact hw r' h _ e3
      · rw [List.mem_singleton.1 h, hv] at e3
        exact (Option.some_inj.1 e3).symm.le

/-- The best strength 1 reaches 1/2, but 1/10000 is printed. -/
example : reportRPS [((1 : ℚ), [some (1 / 2 : ℚ)]), (1 / 10000, [some (1 / 4)])] = (1 / 2, some (1 / 10000)) ∧
    reportIF [((1 : ℚ), [some (1 / 2 : ℚ)]), (1 / 10000, [some (1 / 4)])] = (1 / 2, some 1) := by
  constructor <;> decide +kernel

/-- Samples without a correlation do not count: one good sample beats two slightly worse ones. -/
example : (reportIF [(0, [some (9 / 10 : ℚ), none]), (1, [some (8 / 10), some (8 / 10)])]).2 = some 0 := by
  decide +kernel

/-- All correlations negative: no configuration. -/
example : reportIF [(0, [some (-1 / 2 : ℚ)])] = (0, none) := by decide +kernel

end Search

section Spearman

/-! ### Helper lemmas -/

theorem corrStep_fold (l : List (Option ℝ)) (st : ℝ × ℕ) :
    l.foldl corrStep st = (st.1 + (l.filterMap id).sum, st.2 + (l.filterMap id).length) := by
  induction l generalizing st with
  | nil => simp
  | cons x l ih =>
    cases x with
    | none => simp [ih, corrStep]
    | some v =>
      simp only [List.foldl_cons, ih, corrStep, List.filterMap_cons, id, List.sum_cons, List.length_cons]
      exact Prod.ext (by simp [add_assoc]) (by simp; omega)

theorem nodeIndex_ok (full : ℕ) (l : List ℤ) (h : ∀ z ∈ l, 0 ≤ z ∧ z < full) : l.mapM (nodeIndex full) = .ok (l.map Int.toNat) := by
  induction l with
  | nil => rfl
  | cons z l ih =>
    have hz : nodeIndex full z = .ok z.toNat := by unfold nodeIndex; rw [if_pos (h z (by simp))]
    rw [List.mapM_cons, hz, ih fun w hw => h w (by simp [hw])]
    rfl

theorem nodeIndex_err (full : ℕ) (l : List ℤ) (h : ¬ ∀ z ∈ l, 0 ≤ z ∧ z < full) : l.mapM (nodeIndex full) = .error .valueError := by
  induction l with
  | nil => exact absurd (by simp) h
  | cons z l ih =>
    rw [List.mapM_cons]
    by_cases hz : 0 ≤ z ∧ z < full
    · have hl : ¬ ∀ w ∈ l, 0 ≤ w ∧ w < full := fun h' => h fun w hw => by
        rcases List.mem_cons.1 hw with rfl | hw
        · exact hz
        · exact h' w hw
      rw [show nodeIndex full z = .ok z.toNat by unfold nodeIndex; rw [if_pos hz], ih hl]
      rfl
    · rw [show nodeIndex full z = .error .valueError by unfold nodeIndex; rw [if_neg hz]]
      rfl

theorem nodeLists_ok (full : ℕ) (files : List (List (List (Option ℤ)))) (h : ∀ f ∈ files, ∀ z ∈ readNodes f, 0 ≤ z ∧ z < full) :
    nodeLists full files = .ok (files.map fun f => (readNodes f).map Int.toNat) := by
  unfold nodeLists
  induction files with
  | nil => rfl
  | cons f files ih =>
    rw [List.mapM_cons, nodeIndex_ok full _ (h f (by simp)), ih fun g hg => h g (by simp [hg])]
    rfl

theorem nodeLists_err (full : ℕ) (files : List (List (List (Option ℤ)))) (h : ¬ ∀ f ∈ files, ∀ z ∈ readNodes f, 0 ≤ z ∧ z < full) :
    nodeLists full files = .error .valueError := by
  unfold nodeLists
  induction files with
  | nil => exact absurd (by simp) h
  | cons f files ih =>
    rw [List.mapM_cons]
    by_cases hf : ∀ z ∈ readNodes f, 0 ≤ z ∧ z < full
    · have hl : ¬ ∀ g ∈ files, ∀ z ∈ readNodes g, 0 ≤ z ∧ z < full := fun h' => h fun g hg => by
        rcases List.mem_cons.1 hg with rfl | hg
        · exact hf
        · exact h' g hg
      rw [nodeIndex_ok full _ hf, ih hl]
      rfl
    · rw [nodeIndex_err full _ hf]
      rfl

/-! ### Properties -/

/-- The integers of a file, read off directly: those cells that are one. -/
def cells (rows : List (List (Option ℤ))) : List ℤ := rows.flatMap fun row => row.reduceOption

theorem cells_eq (rows : List (List (Option ℤ))) : readNodes rows = cells rows := by
  unfold readNodes cells
  induction rows with
  | nil => rfl
  | cons r rows ih =>
    rw [List.flatten_cons, List.filterMap_append, ih, List.flatMap_cons]
    rfl

/-- **C193** (value). For files naming training samples only, as many as the ground truth has runs, and matrices with at least as many test samples as the script
looks at, the result is the average of the linear datamodeling scores of `lds` over those of these test samples for which it is defined; a division by zero if there
are none. -/
theorem C193_value (full tests rows cols : ℕ) (score : ℕ → ℕ → ℝ) (files : List (List (List (Option ℤ)))) (gtCols : ℕ) (gt : ℕ → ℕ → ℝ)
    (hne : files ≠ []) (hz : ∀ f ∈ files, ∀ z ∈ cells f, 0 ≤ z ∧ z < full ∧ z < rows) (hc : tests ≤ cols) (hg : tests ≤ gtCols) :
    ∃ corrs, lds (m := files.length) rows tests score (fun k t => gt k t) (fun k => (cells files[k]).map Int.toNat) = .ok corrs ∧
      calculateOne full tests rows cols score files files.length gtCols gt =
        (match nanMean corrs with | none => .error .zeroDivisionError | some v => .ok v) := by
  simp only [← cells_eq] at hz ⊢
  have hl := nodeLists_ok full files fun f hf z hz' => ⟨(hz f hf z hz').1, (hz f hf z hz').2.1⟩
  have h0 : ¬ ∃ i : Fin files.length, ∃ k ∈ (fun k : Fin files.length => List.map Int.toNat (readNodes files[k])) i, rows ≤ k := by
    rintro ⟨i, k, hk, hle⟩
    obtain ⟨z, hz', rfl⟩ := List.mem_map.1 hk
    have := hz _ (List.getElem_mem i.2) z hz'
    omega
  refine ⟨_, by unfold lds; exact if_neg h0, ?_⟩
  · have h1 : ¬ ∃ l ∈ files.map (fun f => (readNodes f).map Int.toNat), ∃ k ∈ l, rows ≤ k := by
      rintro ⟨l, hl', k, hk, hle⟩
      obtain ⟨f, hf, rfl⟩ := List.mem_map.1 hl'
      obtain ⟨z, hz', rfl⟩ := List.mem_map.1 hk
      have := hz f hf z hz'
      omega
    have hlen : files.length ≠ 0 := fun h => hne (List.length_eq_zero_iff.1 h)
    unfold calculateOne
    rw [hl]
    simp only [bind, Except.bind, pure, Except.pure, throw, throwThe, MonadExceptOf.throw]
    rw [if_neg h1, if_neg hlen, if_neg (by simpa using hlen), if_neg (by omega), if_neg (by simp), if_neg (by omega)]
    have hcast : ∀ n (hn : n = files.length) (i : ℕ),
        spearman (m := n) (fun k => ((((files.map fun f => (readNodes f).map Int.toNat)).getD k []).map fun j => score j i).sum) (fun k => gt k i)
          = spearman (m := files.length) (sumScores score (fun k => (readNodes files[k]).map Int.toNat) i) (fun k => gt k i) := by
      rintro n rfl i
      congr 1
      funext k
      simp [sumScores]
    simp only [hcast _ (List.length_map (as := files) _), corrStep_fold, zero_add]
    unfold nanMean
    split
    · rename_i h
      rw [if_pos (List.length_eq_zero_iff.1 h)]
    · rename_i h
      rw [if_neg fun h' => h (List.length_eq_zero_iff.2 h')]

/-- **C193** (errors). A number in a file that is no training sample is a `ValueError`; a training sample without a row in the score matrix, or fewer test samples
than the script looks at, is an `IndexError`; a number of runs other than the number of files is a `ValueError`. -/
theorem C193_errors (full tests rows cols : ℕ) (score : ℕ → ℕ → ℝ) (files : List (List (List (Option ℤ)))) (runs gtCols : ℕ) (gt : ℕ → ℕ → ℝ) :
    ((∃ f ∈ files, ∃ z ∈ cells f, z < 0 ∨ (full : ℤ) ≤ z) → calculateOne full tests rows cols score files runs gtCols gt = .error .valueError) ∧
    ((∀ f ∈ files, ∀ z ∈ cells f, 0 ≤ z ∧ z < full) → (∃ f ∈ files, ∃ z ∈ cells f, (rows : ℤ) ≤ z) →
      calculateOne full tests rows cols score files runs gtCols gt = .error .indexError) ∧
    ((∀ f ∈ files, ∀ z ∈ cells f, 0 ≤ z ∧ z < full ∧ z < rows) → files ≠ [] → 0 < runs →
      (runs ≠ files.length → 0 < tests → 0 < cols → 0 < gtCols → calculateOne full tests rows cols score files runs gtCols gt = .error .valueError) ∧
      (runs = files.length → cols < tests ∨ gtCols < tests → calculateOne full tests rows cols score files runs gtCols gt = .error .indexError)) := by
  simp only [← cells_eq]
  refine ⟨?_, ?_, ?_⟩
  · rintro ⟨f, hf, z, hz, h⟩
    unfold calculateOne
    rw [nodeLists_err full files fun h' => by have := h' f hf z hz; omega]
    rfl
  · rintro h ⟨f, hf, z, hz, hle⟩
    unfold calculateOne
    rw [nodeLists_ok full files h]
    simp only [bind, Except.bind, pure, Except.pure, throw, throwThe, MonadExceptOf.throw]
    rw [if_pos]
    exact ⟨_, List.mem_map.2 ⟨f, hf, rfl⟩, _, List.mem_map.2 ⟨z, hz, rfl⟩, by omega⟩
  · intro h hne hr
    have h1 : ¬ ∃ l ∈ files.map (fun f => (readNodes f).map Int.toNat), ∃ k ∈ l, rows ≤ k := by
      rintro ⟨l, hl', k, hk, hle⟩
      obtain ⟨f, hf, rfl⟩ := List.mem_map.1 hl'
      obtain ⟨z, hz', rfl⟩ := List.mem_map.1 hk
      have := h f hf z hz'
      omega
    have hlen : files.length ≠ 0 := fun h => hne (List.length_eq_zero_iff.1 h)
    have hl := nodeLists_ok full files fun f hf z hz' => ⟨(h f hf z hz').1, (h f hf z hz').2.1⟩
    constructor
    · intro hn ht hc hg
      unfold calculateOne
      rw [hl]
      simp only [bind, Except.bind, pure, Except.pure, throw, throwThe, MonadExceptOf.throw]
      rw [if_neg h1, if_neg (by omega), if_neg (by simpa using hlen), if_neg (by omega), if_pos (by simpa using ⟨by omega, hn⟩)]
    · intro hn hlt
      unfold calculateOne
      rw [hl]
      simp only [bind, Except.bind, pure, Except.pure, throw, throwThe, MonadExceptOf.throw]
      rw [if_neg h1, if_neg (by omega), if_neg (by simpa using hlen)]
      by_cases h0 : tests ≠ 0 ∧ (cols = 0 ∨ gtCols = 0)
      · rw [if_pos h0]
      · rw [if_neg h0, if_neg (by simp [hn]), if_pos hlt]

/-- **C193** (test samples). Only the first test samples count: what the matrices hold for the others has no influence. -/
theorem C193_only_first (full tests rows cols : ℕ) (score score' : ℕ → ℕ → ℝ) (files : List (List (List (Option ℤ)))) (runs gtCols : ℕ) (gt gt' : ℕ → ℕ → ℝ)
    (hs : ∀ k, ∀ t < tests, score k t = score' k t) (hg : ∀ k, ∀ t < tests, gt k t = gt' k t) :
    calculateOne full tests rows cols score files runs gtCols gt = calculateOne full tests rows cols score' files runs gtCols gt' := by
  unfold calculateOne
  have : ∀ lists : List (List ℕ), ((List.range tests).map fun i : ℕ =>
      spearman (m := lists.length) (fun k => ((lists.getD k []).map fun j => score j i).sum) fun k => gt k i) =
      (List.range tests).map fun i : ℕ =>
        spearman (m := lists.length) (fun k => ((lists.getD k []).map fun j => score' j i).sum) fun k => gt' k i := by
    intro lists
    apply List.map_congr_left
    intro i hi
    have hi' := List.mem_range.1 hi
    have e1 : (fun k : Fin lists.length => ((lists.getD k []).map fun j => score j i).sum) = fun k : Fin lists.length => ((lists.getD k []).map fun j => score' j i).sum := by
      funext k
      congr 1
      exact List.map_congr_left fun j _ => hs j i hi'
    have e2 : (fun k : Fin lists.length => gt k i) = fun k : Fin lists.length => gt' k i := by
      funext k
      exact hg k i hi'
    rw [e1, e2]
  simp only [this]

/-- Three runs on the samples 0, 1 and 0, 1, 2; a cell that is no integer is skipped. -/
example : ∃ files : List (List (List (Option ℤ))), files ≠ [] ∧ (∀ f ∈ files, ∀ z ∈ cells f, 0 ≤ z ∧ z < (4 : ℕ) ∧ z < (4 : ℕ)) ∧
    cells (files.getD 2 []) = [0, 2] :=
  ⟨[[[some 0]], [[some 1]], [[some 0, none, some 2]]], by decide, by decide, by decide⟩

end Spearman

end Verif.Experiment
