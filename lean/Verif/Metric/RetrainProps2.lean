import Verif.Metric.RetrainProps

/-!
# C44, C46 (round trip), C84: metadata of parallel runs, end-to-end reading, relocated directories
-/

namespace Verif.Retrain

variable {M ρ : Type}

lemma lookup_metaOf (root : ρ) (start num runs i : ℕ) :
    (metaOf root start num runs).dirMap.lookup i = if start ≤ i ∧ i < start + num then some (root, i) else none := by
  unfold metaOf
  simp only
  induction num with
  | zero => simp
  | succ m ih =>
    rw [List.range_succ, List.map_append, List.lookup_append, ih]
    simp only [List.map_cons, List.map_nil, List.lookup_cons, List.lookup_nil]
    by_cases h : start ≤ i ∧ i < start + m
    · rw [if_pos h, if_pos (by omega)]; rfl
    · rw [if_neg h]
      by_cases h2 : i = start + m
      · subst h2
        rw [if_pos (by omega)]; simp
      · rw [if_neg (by omega)]
        have : (i == start + m) = false := by simp [h2]
        rw [this]; rfl

/-- **C44** (who writes metadata). A valid call writes `metadata.yml` iff it runs in single mode or `(start_id + 1) * num_subsets = total`. -/
theorem C44_metadata_written_iff (choice : ℕ → ℕ → ℕ → List ℕ) (train : List ℕ → ℕ → M) (root : ρ) (n k runs seed : ℕ) (w : Worker)
    (hv : w.Valid) (hk : k ≤ n) :
    (∃ x ∈ (w.run choice train root n k runs seed).1, x.1 = .metadata root) ↔ w.total = 0 ∨ ((w.start + 1) * w.num : ℤ) = w.total := by
  constructor
  · rintro ⟨x, hx, hp⟩
    rcases (mem_run choice train root n k runs seed w hv hk x).1 hx with ⟨i, -, hx⟩ | ⟨h, -⟩
    · rw [mem_subsetWrites] at hx
      rcases hx.1 with h | ⟨j, -, h⟩ <;> rw [h] at hp <;> exact absurd hp (by simp)
    · exact h
  · intro h
    exact ⟨_, (mem_run choice train root n k runs seed w hv hk _).2 (Or.inr ⟨h, rfl⟩), rfl⟩

/-- **C44** (complete metadata). The directory map written by a worker covers all the subsets it declares iff the worker starts at 0. -/
theorem C44_complete_iff (root : ρ) (start num runs : ℕ) (hnum : num ≠ 0) :
    (∀ i < (metaOf root start num runs).numSubsets, ∃ d, (metaOf root start num runs).dirMap.lookup i = some d) ↔ start = 0 := by
  simp only [lookup_metaOf]
  have hn : (metaOf root start num runs).numSubsets = (start + 1) * num := rfl
  rw [hn]
  constructor
  · intro h
    by_contra hs
    obtain ⟨d, hd⟩ := h 0 (Nat.mul_pos (by omega) (by omega))
    rw [if_neg (by omega)] at hd
    exact absurd hd (by simp)
  · rintro rfl i hi
    exact ⟨(root, i), by rw [if_pos (by omega)]⟩

section
variable [DecidableEq ρ] {F : Type} [Field F]

lemma groundTruth_of_files (target : M → ℕ → F) (dir root : ρ) (fs : FS ρ M) (num runs : ℕ) (idx : ℕ → List ℕ) (k : ℕ) (m : ℕ → ℕ → M)
    (hmd : fs (.metadata dir) = some (.yaml (metaOf root 0 num runs))) (hlen : ∀ i < num, (idx i).length = k)
    (hidx : ∀ i < num, fs (.indices root i) = some (.text (joinLines ((idx i).map str))))
    (hm : ∀ i < num, ∀ j < runs, fs (.weights root i j) = some (.model (m i j))) :
    ldsGroundTruth target dir fs = .ok
      ((List.range num).map (fun i t => if runs = 0 then none else some (-((∑ j ∈ Finset.range runs, target (m i j) t) / runs))),
        (List.range num).map idx) := by
  unfold ldsGroundTruth
  rw [hmd]
  have hn : (metaOf root 0 num runs).numSubsets = num := by simp [metaOf]
  have hr : (metaOf root 0 num runs).runs = runs := rfl
  have hdir : ∀ i < num, lookupDir (metaOf root 0 num runs) i = .ok (root, i) := by
    intro i hi
    unfold lookupDir
    rw [lookup_metaOf, if_pos (by omega)]
  have h1 : (List.range num).mapM (readIndices fs (metaOf root 0 num runs)) = .ok ((List.range num).map idx) := by
    apply mapM_ok
    intro i hi
    have hi := List.mem_range.1 hi
    unfold readIndices
    rw [hdir i hi]
    simp only [bind, Except.bind, hidx i hi, parseLines_join]
  simp only [hn, hr]
  rw [h1]
  simp only [bind, Except.bind]
  rw [if_neg]
  · have h2 : (List.range num).mapM (fun i => (List.range runs).foldlM
        (fun (acc : ℕ → F) j => (readTarget target fs (metaOf root 0 num runs) i j).map fun v t => acc t + v t) (fun _ => 0)) =
        .ok ((List.range num).map fun i t => ∑ j ∈ Finset.range runs, target (m i j) t) := by
      apply mapM_ok
      intro i hi
      have hi := List.mem_range.1 hi
      rw [sumFold]
      refine ⟨fun j => target (m i j), ?_, fun t => rfl⟩
      intro j hj
      unfold readTarget
      rw [hdir i hi]
      simp only [bind, Except.bind, hm i hi j hj]
    rw [h2]
    simp only [List.map_map]
    congr 2
    apply List.map_congr_left
    intro i _
    funext t
    simp only [Function.comp, divRuns]
    split_ifs <;> rfl
  · push Not
    intro a ha b hb
    obtain ⟨i, hi, rfl⟩ := List.mem_map.1 ha
    obtain ⟨j, hj, rfl⟩ := List.mem_map.1 hb
    rw [hlen i (List.mem_range.1 hi), hlen j (List.mem_range.1 hj)]

/-- **C46** (round trip). After one `retrain_lds` call covering all subsets, reading the ground truth from the same directory succeeds, on
any previous file-system state; row `i` is minus the mean target over the runs of the models trained on subset `i`, and the index tensor lists
exactly the subsets those models were trained on. -/
theorem C46_round_trip (choice : ℕ → ℕ → ℕ → List ℕ) (train : List ℕ → ℕ → M) (root : ρ) (n k runs seed : ℕ) (w : Worker)
    (hv : w.Valid) (hk : k ≤ n) (hone : w.total = 0 ∨ (w.start = 0 ∧ (w.num : ℤ) = w.total))
    (hchoice : ∀ s, (choice s n k).length = k) (target : M → ℕ → F) (fs : FS ρ M) :
    ldsGroundTruth target root (applyWrites fs (w.run choice train root n k runs seed).1) = .ok
      ((List.range w.num).map (fun i t => if runs = 0 then none else
          some (-((∑ j ∈ Finset.range runs, target (train (choice (seed + i) n k) (seed + i * runs + j)) t) / runs))),
        (List.range w.num).map fun i => choice (seed + i) n k) := by
  have hpart := C43_partition choice train root n k runs seed [w] (by simpa using hv) hk _
    (by simp only [List.flatMap_cons, List.flatMap_nil, List.append_nil]; exact List.Perm.refl _) fs
  have hcov : ∀ i < w.num, w.Covers i := by
    intro i hi
    unfold Worker.Covers
    split_ifs with h
    · exact hi
    · rcases hone with h' | ⟨h', -⟩
      · exact absurd h' h
      · omega
  apply groundTruth_of_files target root root _ w.num runs _ k
    (fun i j => train (choice (seed + i) n k) (seed + i * runs + j)) ?_ (fun i _ => hchoice _)
  · intro i hi
    rw [(hpart (.indices root i) (by simp)).1 ⟨rfl, w, by simp, hcov i hi⟩]; rfl
  · intro i hi j hj
    rw [(hpart (.weights root i j) (by simp)).1 ⟨rfl, hj, w, by simp, hcov i hi⟩]; rfl
  · have hstart : (if w.total = 0 then 0 else w.start) = 0 := by
      rcases hone with h | ⟨h, -⟩
      · rw [if_pos h]
      · rw [h, ite_self]
    have hwrite : w.total = 0 ∨ ((w.start + 1) * w.num : ℤ) = w.total := by
      rcases hone with h | ⟨h, h'⟩
      · exact Or.inl h
      · right; rw [h]; push_cast; linarith
    rcases applyWrites_mem fs (w.run choice train root n k runs seed).1 (.metadata root) with ⟨h1, -⟩ | ⟨x, hx, hxp, he⟩
    · exfalso
      obtain ⟨x, hx, hp⟩ := (C44_metadata_written_iff choice train root n k runs seed w hv hk).2 hwrite
      exact h1 x hx hp
    · rw [he]
      rcases (mem_run choice train root n k runs seed w hv hk x).1 hx with ⟨i, -, hx⟩ | ⟨-, hx⟩
      · rw [mem_subsetWrites] at hx
        rcases hx.1 with h | ⟨j, -, h⟩ <;> rw [h] at hxp <;> exact absurd hxp (by simp)
      · rw [hx, hstart]

/-- `W` workers with `num` subsets each. -/
def workers (W num : ℕ) : List Worker := (List.range W).map fun w => ⟨w * num, num, (W * num : ℕ)⟩

/-- **C44** (parallel runs). Split `W * num` subsets evenly over `W` workers, in a directory without metadata. Whatever the interleaving of
their writes, the ground truth can be read afterwards iff `W = 1`: with several workers the call raises, although every subset directory is
complete. -/
theorem C44_parallel (choice : ℕ → ℕ → ℕ → List ℕ) (train : List ℕ → ℕ → M) (root : ρ) (n k runs seed W num : ℕ)
    (hnum : num ≠ 0) (hk : k ≤ n) (hchoice : ∀ s, (choice s n k).length = k) (target : M → ℕ → F) (fs : FS ρ M)
    (hfs : fs (.metadata root) = none) (il : List (Write ρ M))
    (hil : il.Perm ((workers W num).flatMap fun w => (w.run choice train root n k runs seed).1)) :
    (∃ r, ldsGroundTruth target root (applyWrites fs il) = .ok r) ↔ W = 1 := by
  have hvalid : ∀ w ∈ workers W num, w.Valid := by
    intro w hw
    obtain ⟨a, ha, rfl⟩ := List.mem_map.1 hw
    refine ⟨by simp only; positivity, hnum, ?_⟩
    simp
  have hpart := C43_partition choice train root n k runs seed (workers W num) hvalid hk il hil fs
  have htot : ∀ w ∈ workers W num, w.total ≠ 0 := by
    intro w hw
    obtain ⟨a, ha, rfl⟩ := List.mem_map.1 hw
    have := List.mem_range.1 ha
    have : 0 < W * num := Nat.mul_pos (by omega) (by omega)
    simp only; omega
  -- what the metadata file can be
  have hmeta : applyWrites fs il (.metadata root) = none ∨ ∃ a < W, a * num + 1 = W ∧
      applyWrites fs il (.metadata root) = some (.yaml (metaOf root (a * num) num runs)) := by
    rcases applyWrites_mem fs il (.metadata root) with ⟨-, h⟩ | ⟨x, hx, hxp, he⟩
    · left; rw [h, hfs]
    · right
      rw [hil.mem_iff, List.mem_flatMap] at hx
      obtain ⟨w, hw, hx⟩ := hx
      rcases (mem_run choice train root n k runs seed w (hvalid w hw) hk x).1 hx with ⟨i, -, hx⟩ | ⟨h, hx⟩
      · rw [mem_subsetWrites] at hx
        rcases hx.1 with h | ⟨j, -, h⟩ <;> rw [h] at hxp <;> exact absurd hxp (by simp)
      · rw [if_neg (htot w hw)] at hx
        rcases h with h | h
        · exact absurd h (htot w hw)
        · obtain ⟨a, ha, rfl⟩ := List.mem_map.1 hw
          refine ⟨a, List.mem_range.1 ha, ?_, by rw [he, hx]⟩
          simp only at h
          have h' : (a * num + 1) * num = W * num := by exact_mod_cast h
          exact Nat.eq_of_mul_eq_mul_right (by omega) h'
  constructor
  · rintro ⟨r, hr⟩
    by_contra hW
    unfold ldsGroundTruth at hr
    rcases hmeta with h | ⟨a, ha, hW', h⟩
    · rw [h] at hr; exact absurd hr (by simp)
    · rw [h] at hr
      simp only at hr
      have hpos : 0 < a * num := by omega
      have hns : (metaOf root (a * num) num runs).numSubsets = (a * num + 1) * num := rfl
      cases hm : (List.range (metaOf root (a * num) num runs).numSubsets).mapM
          (readIndices (applyWrites fs il) (metaOf root (a * num) num runs)) with
      | error e => rw [hm] at hr; exact absurd hr (by simp [bind, Except.bind])
      | ok idx =>
        rw [mapM_ok_iff] at hm
        have hlen := hm.length_eq
        rw [List.length_range, hns] at hlen
        have h0 : 0 < (a * num + 1) * num := Nat.mul_pos (by omega) (by omega)
        have := List.Forall₂.get hm (i := 0) (by rw [List.length_range, hns]; exact h0) (by omega)
        simp only [List.get_eq_getElem, List.getElem_range] at this
        unfold readIndices lookupDir at this
        rw [lookup_metaOf, if_neg (by omega)] at this
        exact absurd this (by simp [bind, Except.bind])
  · rintro rfl
    have h1 : workers 1 num = [⟨0, num, (num : ℤ)⟩] := by simp [workers]
    rw [h1] at hil hpart
    have hmd : applyWrites fs il (.metadata root) = some (.yaml (metaOf root 0 num runs)) := by
      rcases hmeta with h | ⟨a, ha, -, h⟩
      · exfalso
        rcases applyWrites_mem fs il (.metadata root) with ⟨h2, -⟩ | ⟨x, -, -, he⟩
        · obtain ⟨x, hx, hp⟩ := (C44_metadata_written_iff choice train root n k runs seed ⟨0, num, (num : ℤ)⟩
            (by rw [h1] at hvalid; exact hvalid _ (by simp)) hk).2 (Or.inr (by simp))
          exact h2 x (hil.mem_iff.2 (by simpa using hx)) hp
        · rw [h] at he; exact absurd he (by simp)
      · obtain rfl : a = 0 := by omega
        rw [h, Nat.zero_mul]
    refine ⟨_, groundTruth_of_files target root root _ num runs (fun i => choice (seed + i) n k) k
      (fun i j => train (choice (seed + i) n k) (seed + i * runs + j)) hmd (fun i _ => hchoice _) ?_ ?_⟩
    · intro i hi
      rw [(hpart (.indices root i) (by simp)).1 ⟨rfl, _, List.mem_singleton_self _, ?_⟩]
      · rfl
      · unfold Worker.Covers; simp only; split_ifs <;> omega
    · intro i hi j hj
      rw [(hpart (.weights root i j) (by simp)).1 ⟨rfl, hj, _, List.mem_singleton_self _, ?_⟩]
      · rfl
      · unfold Worker.Covers; simp only; split_ifs <;> omega

/-- **C84** (relocation). The ground truth read from `dir` depends on the metadata found there and on the files under the directories recorded in
it, not on the other files of `dir`: a copied directory is read from the original place. -/
theorem C84_reads_recorded_directories (target : M → ℕ → F) (dir : ρ) (fs fs' : FS ρ M) (md : Meta ρ)
    (h1 : fs (.metadata dir) = some (.yaml md)) (h2 : fs' (.metadata dir) = some (.yaml md))
    (h : ∀ i r d, md.dirMap.lookup i = some (r, d) → fs (.indices r d) = fs' (.indices r d) ∧ ∀ j, fs (.weights r d j) = fs' (.weights r d j)) :
    ldsGroundTruth target dir fs = ldsGroundTruth target dir fs' := by
  have e1 : readIndices fs md = readIndices fs' md := by
    funext i
    unfold readIndices lookupDir
    cases hl : md.dirMap.lookup i with
    | none => rfl
    | some rd => obtain ⟨r, d⟩ := rd; simp only [bind, Except.bind]; rw [(h i r d hl).1]
  have e2 : ∀ i j, readTarget target fs md i j = readTarget target fs' md i j := by
    intro i j
    unfold readTarget lookupDir
    cases hl : md.dirMap.lookup i with
    | none => rfl
    | some rd => obtain ⟨r, d⟩ := rd; simp only [bind, Except.bind]; rw [(h i r d hl).2 j]
  unfold ldsGroundTruth
  rw [h1, h2]
  simp only [e1, e2]

/-- **C84** (original deleted). If the metadata was copied to `dir` but the original root has no index files any more, reading raises
`FileNotFoundError` even when `dir` contains all subset files. -/
theorem C84_moved (target : M → ℕ → F) (dir root : ρ) (fs : FS ρ M) (num runs : ℕ) (hnum : num ≠ 0)
    (hmd : fs (.metadata dir) = some (.yaml (metaOf root 0 num runs))) (hgone : ∀ i, fs (.indices root i) = none) :
    ldsGroundTruth target dir fs = .error .fileNotFoundError := by
  obtain ⟨m, rfl⟩ := Nat.exists_eq_succ_of_ne_zero hnum
  unfold ldsGroundTruth
  rw [hmd]
  have hn : (metaOf root 0 m.succ runs).numSubsets = m + 1 := by simp [metaOf]
  have h0 : readIndices fs (metaOf root 0 m.succ runs) 0 = .error .fileNotFoundError := by
    unfold readIndices lookupDir
    rw [lookup_metaOf, if_pos (by omega)]
    simp only [bind, Except.bind, hgone]
  simp only [hn, List.range_succ_eq_map, List.mapM_cons, h0, bind, Except.bind]

end

/-- Concrete instance of the round trip: 3 subsets of size 1 of 2 data points, 2 runs. -/
example : ldsGroundTruth (F := ℚ) (fun m _ => m) () (applyWrites (fun _ => none)
      ((⟨0, 3, 0⟩ : Worker).run (fun s _ _ => [s % 2]) (fun l s => (l.sum + s : ℚ)) () 2 1 2 10).1) =
    .ok ((List.range 3).map (fun i _ => if (2 : ℕ) = 0 then none else
      some (-((∑ j ∈ Finset.range 2, ((([(10 + i) % 2].sum : ℕ) : ℚ) + ((10 + i * 2 + j : ℕ) : ℚ))) / (2 : ℕ)))), [[0], [1], [0]]) :=
  C46_round_trip (F := ℚ) (fun s _ _ => [s % 2]) (fun l s => (l.sum + s : ℚ)) () 2 1 2 10 ⟨0, 3, 0⟩ (by simp [Worker.Valid]) (by norm_num)
    (Or.inl rfl) (fun _ => rfl) (fun m _ => m) _

end Verif.Retrain
