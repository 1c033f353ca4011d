import Mathlib.Tactic.Ring
import Mathlib.Tactic.Linarith
import Mathlib.Tactic.NormNum
import Mathlib.Algebra.Field.Rat
import Mathlib.Algebra.BigOperators.Group.Finset.Basic
import Verif.Metric.RetrainText

/-!
# C43 – C46: retraining for the linear datamodeling score and reading it back
-/

namespace Verif.Retrain

variable {M ρ : Type}

/-- **C45.** The subset indices written to `indices.txt` are read back unchanged, for every list including the empty one. -/
theorem C45_indices_round_trip (ns : List ℕ) : parseLines (joinLines (ns.map str)) = .ok ns := parseLines_join ns

/-- Different lists give different files. -/
theorem C45_injective (a b : List ℕ) (h : joinLines (a.map str) = joinLines (b.map str)) : a = b := by
  have := C45_indices_round_trip a
  rw [h, C45_indices_round_trip b] at this
  injection this with this
  exact this.symm

example : joinLines ([7, 120, 0].map str) = "7\n120\n0".toList ∧ parseLines "7\n120\n0".toList = .ok [7, 120, 0] := by decide +kernel

/-! ## File-system lemmas -/

section fs
variable [DecidableEq ρ]

lemma applyWrites_mem (fs : FS ρ M) (ws : List (Write ρ M)) (p : Path ρ) :
    ((∀ w ∈ ws, w.1 ≠ p) ∧ applyWrites fs ws p = fs p) ∨ ∃ w ∈ ws, w.1 = p ∧ applyWrites fs ws p = some w.2 := by
  induction ws using List.reverseRecOn with
  | nil => left; exact ⟨by simp, rfl⟩
  | append_singleton ws w ih =>
    have hstep : applyWrites fs (ws ++ [w]) = Function.update (applyWrites fs ws) w.1 (some w.2) := by
      simp [applyWrites, List.foldl_append]
    by_cases hp : w.1 = p
    · right
      refine ⟨w, by simp, hp, ?_⟩
      rw [hstep, ← hp, Function.update_self]
    · rw [hstep, Function.update_of_ne (Ne.symm hp)]
      rcases ih with ⟨h1, h2⟩ | ⟨v, hv, h1, h2⟩
      · left
        refine ⟨?_, h2⟩
        intro v hv
        rcases List.mem_append.1 hv with hv | hv
        · exact h1 v hv
        · rw [List.mem_singleton] at hv; rw [hv]; exact hp
      · right; exact ⟨v, by simp [hv], h1, h2⟩

/-- If the content of every write is determined by its path, the final state does not depend on order or multiplicity. -/
lemma applyWrites_functional (fs : FS ρ M) (ws : List (Write ρ M)) (g : Path ρ → Content ρ M) (p : Path ρ)
    (h : ∀ w ∈ ws, w.1 = p → w.2 = g p) : ((∀ w ∈ ws, w.1 ≠ p) ∧ applyWrites fs ws p = fs p) ∨
      ((∃ w ∈ ws, w.1 = p) ∧ applyWrites fs ws p = some (g p)) := by
  rcases applyWrites_mem fs ws p with h1 | ⟨w, hw, hp, he⟩
  · exact Or.inl h1
  · right; exact ⟨⟨w, hw, hp⟩, by rw [he, h w hw hp]⟩

end fs

/-! ## C43 -/

/-- Specification: what must be in subset directory `i`, as a function of `seed`, `i`, `j` only. -/
def expected (choice : ℕ → ℕ → ℕ → List ℕ) (train : List ℕ → ℕ → M) (n k runs seed : ℕ) : Path ρ → Option (Content ρ M)
  | .indices _ i => some (.text (joinLines ((choice (seed + i) n k).map str)))
  | .weights _ i j => some (.model (train (choice (seed + i) n k) (seed + i * runs + j)))
  | .metadata _ => none

/-- A worker: start id, number of subsets, declared total. -/
structure Worker where
  start : ℕ
  num : ℕ
  total : ℤ

/-- The arguments are accepted. -/
def Worker.Valid (w : Worker) : Prop := 0 ≤ w.total ∧ w.num ≠ 0 ∧ w.total % w.num = 0

/-- The subsets this worker is responsible for. -/
def Worker.Covers (w : Worker) (i : ℕ) : Prop := if w.total = 0 then i < w.num else w.start ≤ i ∧ i < w.start + w.num

/-- The run of a worker. -/
def Worker.run (choice : ℕ → ℕ → ℕ → List ℕ) (train : List ℕ → ℕ → M) (root : ρ) (n k runs seed : ℕ) (w : Worker) :
    List (Write ρ M) × Except Err Unit := retrainLds choice train root n k w.num runs w.start w.total seed

/-- The call succeeds iff the arguments are valid and the subset fits in the data set; a failing call writes nothing. -/
theorem C43_outcome (choice : ℕ → ℕ → ℕ → List ℕ) (train : List ℕ → ℕ → M) (root : ρ) (n k runs seed : ℕ) (w : Worker) :
    ((w.run choice train root n k runs seed).2 = .ok () ↔ w.Valid ∧ k ≤ n) ∧
      (¬ (w.Valid ∧ k ≤ n) → (w.run choice train root n k runs seed).1 = []) := by
  unfold Worker.run retrainLds Worker.Valid
  split_ifs with h1 h2 h3 h4 h5 <;> constructor <;> simp_all

lemma mem_run (choice : ℕ → ℕ → ℕ → List ℕ) (train : List ℕ → ℕ → M) (root : ρ) (n k runs seed : ℕ) (w : Worker) (hv : w.Valid)
    (hk : k ≤ n) (x : Write ρ M) : x ∈ (w.run choice train root n k runs seed).1 ↔
      (∃ i, w.Covers i ∧ x ∈ subsetWrites choice train root n k runs seed i) ∨
      ((w.total = 0 ∨ ((w.start + 1) * w.num : ℤ) = w.total) ∧
        x = (.metadata root, .yaml (metaOf root (if w.total = 0 then 0 else w.start) w.num runs))) := by
  obtain ⟨h1, h2, h3⟩ := hv
  unfold Worker.run retrainLds Worker.Covers
  rw [if_neg (by omega), if_neg h2, if_neg (by simpa using h3)]
  simp only [if_neg (show ¬ n < k by omega), List.mem_append, List.mem_flatMap, List.mem_range]
  constructor
  · rintro (⟨d, hd, hx⟩ | hx)
    · left
      refine ⟨_, ?_, hx⟩
      split_ifs <;> omega
    · right
      by_cases h0 : w.total = 0
      · simp only [h0, true_or, if_true, List.mem_singleton] at hx ⊢
        exact ⟨trivial, hx⟩
      · simp only [h0, false_or, if_false] at hx ⊢
        by_cases h4 : ((w.start + 1) * w.num : ℤ) = w.total
        · rw [if_pos h4, List.mem_singleton] at hx
          exact ⟨h4, hx⟩
        · rw [if_neg h4] at hx; simp at hx
  · rintro (⟨i, hi, hx⟩ | ⟨h4, hx⟩)
    · left
      split_ifs at hi ⊢ with h0
      · exact ⟨i, hi, by rwa [zero_add]⟩
      · exact ⟨i - w.start, by omega, by rwa [show w.start + (i - w.start) = i by omega]⟩
    · right
      rw [if_pos, List.mem_singleton]
      · exact hx
      · rcases h4 with h4 | h4
        · exact Or.inl h4
        · by_cases h0 : w.total = 0
          · exact Or.inl h0
          · right; rw [if_neg h0]; exact h4

lemma mem_subsetWrites (choice : ℕ → ℕ → ℕ → List ℕ) (train : List ℕ → ℕ → M) (root : ρ) (n k runs seed i : ℕ) (x : Write ρ M) :
    x ∈ subsetWrites choice train root n k runs seed i ↔
      (x.1 = .indices root i ∨ ∃ j < runs, x.1 = .weights root i j) ∧ expected choice train n k runs seed x.1 = some x.2 := by
  unfold subsetWrites
  simp only [List.mem_cons, List.mem_map, List.mem_range]
  obtain ⟨p, c⟩ := x
  constructor
  · rintro (h | ⟨j, hj, h⟩)
    · injection h with h1 h2; subst h1 h2; exact ⟨Or.inl rfl, rfl⟩
    · injection h with h1 h2; subst h1 h2; exact ⟨Or.inr ⟨j, hj, rfl⟩, rfl⟩
  · rintro ⟨h | ⟨j, hj, h⟩, he⟩
    · simp only at h; subst h
      left; simp only [expected, Option.some.injEq] at he; rw [he]
    · simp only at h; subst h
      right; simp only [expected, Option.some.injEq] at he; exact ⟨j, hj, by rw [he]⟩

/-- The file of `p` belongs to a subset covered by one of the workers. -/
def Owned (root : ρ) (runs : ℕ) (ws : List Worker) : Path ρ → Prop
  | .indices r i => r = root ∧ ∃ w ∈ ws, w.Covers i
  | .weights r i j => r = root ∧ j < runs ∧ ∃ w ∈ ws, w.Covers i
  | .metadata _ => False

/-- **C43** (partition independence). Whatever workers are started and however their file writes are interleaved, every subset file ends up
with the content determined by `(seed, i, j)` if some worker covers it and is untouched otherwise. -/
theorem C43_partition [DecidableEq ρ] (choice : ℕ → ℕ → ℕ → List ℕ) (train : List ℕ → ℕ → M) (root : ρ) (n k runs seed : ℕ) (ws : List Worker)
    (hv : ∀ w ∈ ws, w.Valid) (hk : k ≤ n) (interleaving : List (Write ρ M))
    (hi : interleaving.Perm (ws.flatMap fun w => (w.run choice train root n k runs seed).1)) (fs : FS ρ M) (p : Path ρ)
    (hp : ∀ r, p ≠ .metadata r) :
    (Owned root runs ws p → applyWrites fs interleaving p = expected choice train n k runs seed p) ∧
    (¬ Owned root runs ws p → applyWrites fs interleaving p = fs p) := by
  have hmem : ∀ x : Write ρ M, x ∈ interleaving → x.1 = p → expected choice train n k runs seed p = some x.2 ∧ Owned root runs ws p := by
    intro x hx hxp
    rw [hi.mem_iff, List.mem_flatMap] at hx
    obtain ⟨w, hw, hx⟩ := hx
    rcases (mem_run choice train root n k runs seed w (hv w hw) hk x).1 hx with ⟨i, hc, hx⟩ | ⟨-, hx⟩
    · rw [mem_subsetWrites] at hx
      refine ⟨hxp ▸ hx.2, ?_⟩
      rcases hx.1 with h | ⟨j, hj, h⟩ <;> rw [← hxp, h]
      · exact ⟨rfl, w, hw, hc⟩
      · exact ⟨rfl, hj, w, hw, hc⟩
    · rw [hx] at hxp; exact absurd hxp.symm (hp root)
  have hown : Owned root runs ws p → ∃ x ∈ interleaving, x.1 = p := by
    intro ho
    rcases p with r | ⟨r, i⟩ | ⟨r, i, j⟩
    · exact absurd rfl (hp r)
    · obtain ⟨rfl, w, hw, hc⟩ := ho
      refine ⟨(.indices r i, .text (joinLines ((choice (seed + i) n k).map str))), ?_, rfl⟩
      rw [hi.mem_iff, List.mem_flatMap]
      refine ⟨w, hw, (mem_run choice train r n k runs seed w (hv w hw) hk _).2 (Or.inl ⟨i, hc, ?_⟩)⟩
      rw [mem_subsetWrites]; exact ⟨Or.inl rfl, rfl⟩
    · obtain ⟨rfl, hj, w, hw, hc⟩ := ho
      refine ⟨(.weights r i j, .model (train (choice (seed + i) n k) (seed + i * runs + j))), ?_, rfl⟩
      rw [hi.mem_iff, List.mem_flatMap]
      refine ⟨w, hw, (mem_run choice train r n k runs seed w (hv w hw) hk _).2 (Or.inl ⟨i, hc, ?_⟩)⟩
      rw [mem_subsetWrites]; exact ⟨Or.inr ⟨j, hj, rfl⟩, rfl⟩
  rcases applyWrites_mem fs interleaving p with ⟨h1, h2⟩ | ⟨x, hx, hxp, he⟩
  · refine ⟨fun ho => ?_, fun _ => h2⟩
    obtain ⟨x, hx, hxp⟩ := hown ho
    exact absurd hxp (h1 x hx)
  · obtain ⟨h3, h4⟩ := hmem x hx hxp
    exact ⟨fun _ => by rw [he, h3], fun hn => absurd h4 hn⟩

/-- **C43** (same as sequential). Two families of workers covering the same subsets leave the same subset files, whatever the interleavings. -/
theorem C43_same_as_sequential [DecidableEq ρ] (choice : ℕ → ℕ → ℕ → List ℕ) (train : List ℕ → ℕ → M) (root : ρ) (n k runs seed : ℕ)
    (ws ws' : List Worker) (hv : ∀ w ∈ ws, w.Valid) (hv' : ∀ w ∈ ws', w.Valid) (hk : k ≤ n)
    (hcov : ∀ i, (∃ w ∈ ws, w.Covers i) ↔ ∃ w ∈ ws', w.Covers i) (il il' : List (Write ρ M))
    (hi : il.Perm (ws.flatMap fun w => (w.run choice train root n k runs seed).1))
    (hi' : il'.Perm (ws'.flatMap fun w => (w.run choice train root n k runs seed).1)) (fs : FS ρ M) (p : Path ρ)
    (hp : ∀ r, p ≠ .metadata r) : applyWrites fs il p = applyWrites fs il' p := by
  have h1 := C43_partition choice train root n k runs seed ws hv hk il hi fs p hp
  have h2 := C43_partition choice train root n k runs seed ws' hv' hk il' hi' fs p hp
  have ho : Owned root runs ws p ↔ Owned root runs ws' p := by
    rcases p with r | ⟨r, i⟩ | ⟨r, i, j⟩ <;> simp only [Owned, hcov]
  by_cases h : Owned root runs ws p
  · rw [h1.1 h, h2.1 (ho.1 h)]
  · rw [h1.2 h, h2.2 (fun h' => h (ho.2 h'))]

/-- **C43** (distinct seeds). Training seeds of different (subset, run) pairs differ. -/
theorem C43_seeds_distinct (seed runs i j i' j' : ℕ) (hj : j < runs) (hj' : j' < runs)
    (h : seed + i * runs + j = seed + i' * runs + j') : i = i' ∧ j = j' := by
  have h1 : i * runs + j = i' * runs + j' := by omega
  have hq : ∀ a b, b < runs → (a * runs + b) / runs = a := by
    intro a b hb
    rw [mul_comm, Nat.mul_add_div (by omega), Nat.div_eq_of_lt hb, add_zero]
  have hi : i = i' := by rw [← hq i j hj, h1, hq i' j' hj']
  subst hi
  exact ⟨rfl, by omega⟩

/-- Two workers with two subsets each against one sequential run of four subsets. -/
example : (∀ w ∈ [(⟨0, 2, 4⟩ : Worker), ⟨2, 2, 4⟩], w.Valid) ∧ (∀ w ∈ [(⟨0, 4, 0⟩ : Worker)], w.Valid) ∧
    ∀ i, (∃ w ∈ [(⟨0, 2, 4⟩ : Worker), ⟨2, 2, 4⟩], w.Covers i) ↔ ∃ w ∈ [(⟨0, 4, 0⟩ : Worker)], w.Covers i := by
  refine ⟨?_, ?_, ?_⟩
  · simp [Worker.Valid]
  · simp [Worker.Valid]
  · intro i; simp [Worker.Covers]; omega

/-! ## C46 -/

section gt
variable [DecidableEq ρ] {F : Type} [Field F]

lemma sumFold (f : ℕ → Except Err (ℕ → F)) (runs : ℕ) (r : ℕ → F) :
    (List.range runs).foldlM (fun (acc : ℕ → F) j => (f j).map fun v t => acc t + v t) (fun _ => 0) = .ok r ↔
      ∃ v : ℕ → ℕ → F, (∀ j < runs, f j = .ok (v j)) ∧ ∀ t, r t = ∑ j ∈ Finset.range runs, v j t := by
  induction runs generalizing r with
  | zero =>
    simp only [List.range_zero, List.foldlM_nil, pure, Except.pure, Except.ok.injEq]
    constructor
    · rintro rfl; exact ⟨fun _ _ => 0, by simp, by simp⟩
    · rintro ⟨v, -, h⟩; funext t; simp [h t]
  | succ m ih =>
    rw [List.range_succ, List.foldlM_append]
    simp only [bind, Except.bind, List.foldlM_cons, List.foldlM_nil, pure, Except.pure]
    cases hacc : (List.range m).foldlM (fun (acc : ℕ → F) j => (f j).map fun v t => acc t + v t) (fun _ => 0) with
    | error e =>
      simp only [reduceCtorEq, false_iff]
      rintro ⟨v, hv, -⟩
      have := (ih (fun t => ∑ j ∈ Finset.range m, v j t)).2 ⟨v, fun j hj => hv j (by omega), fun t => rfl⟩
      rw [hacc] at this; exact absurd this (by simp)
    | ok a =>
      obtain ⟨va, hva, hsum⟩ := (ih a).1 hacc
      cases hm : f m with
      | error e =>
        simp only [Except.map, reduceCtorEq, false_iff]
        rintro ⟨v, hv, -⟩
        have := hv m (by omega); rw [hm] at this; exact absurd this (by simp)
      | ok w =>
        simp only [Except.map, Except.ok.injEq]
        constructor
        · rintro rfl
          refine ⟨fun j => if j = m then w else va j, ?_, ?_⟩
          · intro j hj
            by_cases h : j = m
            · subst h; simp [hm]
            · simp only [if_neg h]; exact hva j (by omega)
          · intro t
            rw [Finset.sum_range_succ]
            simp only [if_true, hsum]
            congr 1
            apply Finset.sum_congr rfl
            intro j hj
            rw [if_neg (by have := Finset.mem_range.1 hj; omega)]
        · rintro ⟨v, hv, hr⟩
          funext t
          rw [hr, Finset.sum_range_succ, hsum]
          have hw : v m = w := by have := hv m (by omega); rw [hm] at this; injection this with this; exact this.symm
          rw [hw]
          congr 1
          apply Finset.sum_congr rfl
          intro j hj
          have hj := Finset.mem_range.1 hj
          have h1 := hva j hj; rw [hv j (by omega)] at h1; injection h1 with h1; rw [h1]

/-- **C46** (values). If the call succeeds with the metadata `md` on disk then it returns one row and one index list per subset; row `i`
holds minus the mean over the runs of the target of the stored model, and index list `i` is the content of that subset's index file. With zero
runs all values are NaN. -/
theorem C46_values (target : M → ℕ → F) (dir : ρ) (fs : FS ρ M) (md : Meta ρ) (hmd : fs (.metadata dir) = some (.yaml md))
    (rows : List (ℕ → Option F)) (idx : List (List ℕ)) (h : ldsGroundTruth target dir fs = .ok (rows, idx)) :
    rows.length = md.numSubsets ∧ idx.length = md.numSubsets ∧ ∀ i < md.numSubsets, ∃ r d s, ∃ v : ℕ → ℕ → F,
      md.dirMap.lookup i = some (r, d) ∧ fs (.indices r d) = some (.text s) ∧ (∃ l, idx[i]? = some l ∧ parseLines s = .ok l) ∧
      (∀ j < md.runs, ∃ m, fs (.weights r d j) = some (.model m) ∧ v j = target m) ∧
      ∃ row, rows[i]? = some row ∧ ∀ t, row t = if md.runs = 0 then none else some (-((∑ j ∈ Finset.range md.runs, v j t) / md.runs)) := by
  unfold ldsGroundTruth at h
  rw [hmd] at h
  simp only at h
  cases hidx : (List.range md.numSubsets).mapM (readIndices fs md) with
  | error e => rw [hidx] at h; exact absurd h (by simp [bind, Except.bind])
  | ok idx' =>
    rw [hidx] at h
    simp only [bind, Except.bind] at h
    split_ifs at h
    generalize hg : (fun i => (List.range md.runs).foldlM (fun (acc : ℕ → F) j => (readTarget target fs md i j).map fun v t => acc t + v t)
      (fun _ => 0)) = g at h
    cases hs : (List.range md.numSubsets).mapM g with
    | error e => rw [hs] at h; exact absurd h (by simp)
    | ok sums =>
      rw [hs] at h
      simp only [Except.ok.injEq, Prod.mk.injEq] at h
      obtain ⟨hrows, rfl⟩ := h
      rw [mapM_ok_iff] at hidx hs
      have hl1 := hidx.length_eq
      have hl2 := hs.length_eq
      rw [List.length_range] at hl1 hl2
      refine ⟨by rw [← hrows, List.length_map, ← hl2], hl1.symm, ?_⟩
      intro i hi
      have hi1 : readIndices fs md i = .ok idx'[i] := by
        have := List.Forall₂.get hidx (i := i) (by simpa using hi) (by omega); simpa using this
      have hi2 : g i = .ok sums[i] := by
        have := List.Forall₂.get hs (i := i) (by simpa using hi) (by omega); simpa using this
      unfold readIndices lookupDir at hi1
      rw [← hg] at hi2
      simp only at hi2
      rw [sumFold] at hi2
      obtain ⟨v, hv, hsum⟩ := hi2
      cases hlook : md.dirMap.lookup i with
      | none => rw [hlook] at hi1; exact absurd hi1 (by simp [bind, Except.bind])
      | some rd =>
        obtain ⟨r, d⟩ := rd
        rw [hlook] at hi1
        simp only [bind, Except.bind] at hi1
        cases hf : fs (.indices r d) with
        | none => rw [hf] at hi1; exact absurd hi1 (by simp)
        | some c =>
          rw [hf] at hi1
          cases c with
          | model m => exact absurd hi1 (by simp)
          | yaml m => exact absurd hi1 (by simp)
          | text s =>
            simp only at hi1
            have hm : ∀ j < md.runs, ∃ m, fs (.weights r d j) = some (.model m) ∧ v j = target m := by
              intro j hj
              have := hv j hj
              unfold readTarget lookupDir at this
              rw [hlook] at this
              simp only [bind, Except.bind] at this
              split at this
              · rename_i m hm; injection this with this; exact ⟨m, hm, this.symm⟩
              · exact absurd this (by simp)
            refine ⟨r, d, s, v, rfl, hf, ⟨idx'[i], by simp [hl1 ▸ hi], hi1⟩, hm, ?_⟩
            refine ⟨_, by rw [← hrows, List.getElem?_map, List.getElem?_eq_getElem (hl2 ▸ hi)]; rfl, ?_⟩
            intro t
            simp only [divRuns]
            split_ifs with hr0
            · rfl
            · rw [hsum, Option.map_some]

end gt

end Verif.Retrain
