import Verif.BlockIF.DirLemmas

/-!
# Block-projected influence functions: attributors sharing a directory (C162)

The metadata of `BlockProjectedIFAttributor` lives in `cache_dir`, or in the current directory when
none is given, also when gradients are kept in memory.  A new attributor starts from what it finds
there.  `recorded`, `Dir`, `fitted`, `fit` and `FitsSizes` (in `DirLemmas.lean`) are the specification.
-/

namespace Verif.BlockIF

open Verif

variable {K : Type} [Field K] [DecidableEq K] {L : ℕ} {d : Fin L → ℕ}

/-- **C162 (outcome).** Whatever was cached in the directory before, `attribute` of a new attributor
that has cached `D` there returns, when every batch has its recorded size or one row, the scores of
`D`'s batches fitted to the recorded sizes followed by zero rows for the recorded batches `D` does not
have; otherwise it raises `RuntimeError`. -/
theorem C162_outcome {f : Option File} {S : List ℕ} (hdir : Dir f S) (h : Hessian)
    (damping : Option K) {D : Data K d} (hD : D.WF) (hne : D.batches ≠ []) {st : St K d}
    (hok : cache h damping (St.new K d f) D = (st, .ok ()))
    (train test : Data K d) (ht : test.batches.flatten ≠ []) (hd : ∑ l, d l ≠ 0) :
    (FitsSizes (recorded S (D.batches.map List.length)) D.batches →
      ∃ M, (attribute' h damping st train test).2 = .ok M ∧
        Scores M (fit (recorded S (D.batches.map List.length)) (D.batches.map (List.map
          (preconditioned h (damping.getD (1 / 100000)) D.batches.flatten)))).flatten
          test.batches.flatten) ∧
    (¬ FitsSizes (recorded S (D.batches.map List.length)) D.batches →
      (attribute' h damping st train test).2 = .error .runtimeError) := by
  obtain ⟨s1, h1, hk, -, -, -, hw⟩ := kept_cache (K := K) (d := d) (dir_sized hdir) hD hne
  set T := recorded S (D.batches.map List.length) with hT
  have hfits : ∀ φ : Row K d → Row K d, FitsSizes T (D.batches.map (List.map φ)) ↔ FitsSizes T D.batches := by
    intro φ
    unfold FitsSizes
    constructor
    · intro hf k b s hb hs
      have := hf k (b.map φ) s (by rw [List.getElem?_map, hb]; rfl) hs
      simpa using this
    · intro hf k b s hb hs
      rw [List.getElem?_map] at hb
      rcases hbk : D.batches[k]? with _ | b0
      · rw [hbk] at hb; cases hb
      · rw [hbk] at hb
        cases hb
        have := hf k b0 s hbk hs
        simpa using this
  have main : ∃ st', st.cached = true ∧
      (attributeCached h st train test).2 = (attributeCached h st' train test).2 ∧
      KeptReady T (D.batches.map (List.map
        (preconditioned h (damping.getD (1 / 100000)) D.batches.flatten))) st' := by
    cases h with
    | efim =>
      have hr := kept_efim hk hw h1 damping hok
      exact ⟨st, hr.cached, rfl, hr⟩
    | identity =>
      unfold cache at hok
      rw [h1] at hok
      simp only at hok
      have : s1 = st := (Prod.ext_iff.1 hok).1
      subst this
      obtain ⟨st', g1, g3⟩ := kept_ifvp hk hw .identity
      refine ⟨st', hk.cached, ?_, g3⟩
      rw [kept_attr g3 .identity train test ht hd]
      have e1 : ({ s1 with comp := true } : St K d) = s1 := by
        have := hk.comp
        cases s1
        simp only at this
        rw [this]
      unfold attributeCached
      simp only [hk.sync]
      rw [if_neg (by rw [hk.comp]; simp), e1, if_neg (by rw [hw]; simp), g1]
      simp only
      rw [if_neg (by simp [ht, hd])]
  obtain ⟨st', hc, he, hr⟩ := main
  rw [attribute_cached hc, he]
  exact ⟨fun hf => kept_scores hr h train test ht hd ((hfits _).2 hf),
    fun hf => kept_error hr h train test ht hd (fun hc => hf ((hfits _).1 hc))⟩

/-- **C162 (caching).** What the directory contains does not matter for whether caching succeeds. -/
theorem C162_caching {f : Option File} {S : List ℕ} (hdir : Dir f S) (h : Hessian)
    (damping : Option K) {D : Data K d} (hD : D.WF) (hne : D.batches ≠ []) :
    (cache h damping (St.new K d f) D).2 = (cache h damping (St.new K d none) D).2 := by
  obtain ⟨s1, h1, hk1, -, hg1, hp1, hw1⟩ := kept_cache (K := K) (d := d) (dir_sized hdir) hD hne
  obtain ⟨s2, h2, hk2, -, hg2, hp2, hw2⟩ := kept_cache (K := K) (d := d) (dir_sized Dir.empty) hD hne
  have key : ∀ {T : List ℕ} {st s : St K d}, Kept T D.batches s → cacheGrads st D = (s, .ok ()) →
      s.ifvp = [] → (cache h damping st D).2 = (match h with
        | .identity => .ok ()
        | .efim => (preLoop damping (chunks 4 s.grads) (List.finRange L) s.pre).2) := by
    intro T st s hk hs hw
    unfold cache
    rw [hs]
    cases h with
    | identity => rfl
    | efim =>
      simp only
      have hp : computePre damping s =
          ({ s with pre := (preLoop damping (chunks 4 s.grads) (List.finRange L) s.pre).1 },
            (preLoop damping (chunks 4 s.grads) (List.finRange L) s.pre).2) := by
        unfold computePre
        simp only [hk.sync]
        rw [if_neg (by rw [hk.known]; simp)]
      rw [hp]
      rcases (preLoop damping (chunks 4 s.grads) (List.finRange L) s.pre).2 with e | u
      · rfl
      · simp only
        have hk' : Kept T D.batches
            { s with pre := (preLoop damping (chunks 4 s.grads) (List.finRange L) s.pre).1 } :=
          ⟨hk.sized, hk.grads, hk.known, hk.comp, hk.cached, hk.ne, hk.le⟩
        obtain ⟨s3, g1, -⟩ := kept_ifvp hk' hw .efim
        rw [g1]
  rw [key hk1 h1 hw1, key hk2 h2 hw2, hg1, hg2, hp1, hp2]

/-- **C162 (projection dimensions).** After a new attributor has cached a non-empty loader, the directory records that attributor's projection
dimensions, whatever it recorded before (also those of a different projection). -/
theorem C162_dims {f : Option File} {S : List ℕ} (hdir : Dir f S) (h : Hessian)
    (damping : Option K) {D : Data K d} (hD : D.WF) (hne : D.batches ≠ []) {st : St K d}
    (hok : cache h damping (St.new K d f) D = (st, .ok ())) :
    ∃ F, st.md.file = some F ∧ F.dims = some (List.ofFn d) := by
  obtain ⟨s1, h1, hk, -⟩ := kept_cache (K := K) (d := d) (dir_sized hdir) hD hne
  have hmd : st.md = s1.md := by rw [← cache_md hk h1 h damping, hok]
  rw [hmd]
  unfold cacheGrads at h1
  simp only at h1
  rw [if_neg (fun hc => hne hc.2)] at h1
  have e := (Prod.ext_iff.1 h1).1
  simp only at e
  rw [← e]
  rcases hb : D.batches with _ | ⟨x, xs⟩
  · exact absurd hb hne
  · rw [List.zipIdx_cons]
    obtain ⟨-, -, -, -, -, -, h7⟩ := cacheLoop ((x, 0) :: xs.zipIdx (0 + 1))
      ({ St.new K d f with cached := true, comp := true, md := (Meta.new f).initialize D.spec } : St K d)
    obtain ⟨-, h9⟩ := h7 (x, 0) (xs.zipIdx (0 + 1)) rfl rfl
    change ∃ F, (Meta.save (((x, 0) :: xs.zipIdx (0 + 1)).foldl cacheBatch
      ({ St.new K d f with cached := true, comp := true, md := (Meta.new f).initialize D.spec } : St K d)).md).file = some F ∧ _
    rw [h9]
    exact ⟨_, rfl, rfl⟩

theorem fit_self {R : Type} [Zero R] (w : List (List R)) : fit (w.map List.length) w = w := by
  induction w with
  | nil => rfl
  | cons b w ih => simp [fit, fitted, ih]

theorem fit_append {R : Type} [Zero R] (w : List (List R)) (S : List ℕ) :
    (fit (w.map List.length ++ S) w).flatten = w.flatten ++ List.replicate S.sum 0 := by
  induction w with
  | nil =>
    induction S with
    | nil => rfl
    | cons s S ih =>
      simp only [List.map_nil, List.nil_append, fit, List.flatten_cons, List.flatten_nil] at ih ⊢
      rw [ih, List.sum_cons, List.replicate_add]
  | cons b w ih =>
    simp only [List.map_cons, List.cons_append, fit, List.flatten_cons, fitted, if_true,
      List.append_assoc]
    rw [ih]

/-- **C162 (fewer or more batches).** If the directory describes a different number of batches, the
scores are those of a fresh directory, followed by one row of zeros for every sample of the batches
recorded beyond the new ones.  In particular they are exactly those of a fresh directory if the new
loader has more batches than were recorded. -/
theorem C162_stale_rows {f : Option File} {S : List ℕ} (hdir : Dir f S) (h : Hessian)
    (damping : Option K) {D : Data K d} (hD : D.WF) (hne : D.batches ≠ []) {st : St K d}
    (hok : cache h damping (St.new K d f) D = (st, .ok ()))
    (train test : Data K d) (ht : test.batches.flatten ≠ []) (hd : ∑ l, d l ≠ 0)
    (hl : D.batches.length ≠ S.length) :
    ∃ M, (attribute' h damping st train test).2 = .ok M ∧
      Scores M (D.batches.flatten.map
          (preconditioned h (damping.getD (1 / 100000)) D.batches.flatten) ++
        List.replicate (S.drop D.batches.length).sum 0) test.batches.flatten := by
  have hT : recorded S (D.batches.map List.length) =
      D.batches.map List.length ++ S.drop D.batches.length := by
    unfold recorded
    rw [List.length_map, if_neg hl]
  have hfit : FitsSizes (recorded S (D.batches.map List.length)) D.batches := by
    intro k b s hb hs
    rw [hT, List.getElem?_append_left (by
      rw [List.length_map]; exact (List.getElem?_eq_some_iff.1 hb).1), List.getElem?_map, hb] at hs
    exact Or.inl (Option.some.inj hs)
  obtain ⟨M, h1, h2⟩ := (C162_outcome hdir h damping hD hne hok train test ht hd).1 hfit
  refine ⟨M, h1, ?_⟩
  rw [hT] at h2
  have e : D.batches.map List.length = (D.batches.map (List.map (preconditioned h
      (damping.getD (1 / 100000)) D.batches.flatten))).map List.length := by
    rw [List.map_map]
    apply List.map_congr_left
    intro b _
    simp
  rw [e, fit_append, ← List.map_flatten] at h2
  exact h2

/-- **C162 (same sizes).** If the directory describes exactly the batch sizes of the new loader, the
scores are those of a fresh directory. -/
theorem C162_same_sizes {f : Option File} {S : List ℕ} (hdir : Dir f S) (h : Hessian)
    (damping : Option K) {D : Data K d} (hD : D.WF) (hne : D.batches ≠ []) {st : St K d}
    (hok : cache h damping (St.new K d f) D = (st, .ok ()))
    (train test : Data K d) (ht : test.batches.flatten ≠ []) (hd : ∑ l, d l ≠ 0)
    (hs : D.batches.map List.length = S) :
    ∃ M, (attribute' h damping st train test).2 = .ok M ∧
      Scores M (D.batches.flatten.map
        (preconditioned h (damping.getD (1 / 100000)) D.batches.flatten)) test.batches.flatten := by
  have hT : recorded S (D.batches.map List.length) = D.batches.map List.length := by
    unfold recorded
    rw [← hs, if_pos rfl]
  have hfit : FitsSizes (recorded S (D.batches.map List.length)) D.batches := by
    intro k b s hb hs'
    rw [hT, List.getElem?_map, hb] at hs'
    exact Or.inl (Option.some.inj hs')
  obtain ⟨M, h1, h2⟩ := (C162_outcome hdir h damping hD hne hok train test ht hd).1 hfit
  refine ⟨M, h1, ?_⟩
  rw [hT] at h2
  have e : D.batches.map List.length = (D.batches.map (List.map (preconditioned h
      (damping.getD (1 / 100000)) D.batches.flatten))).map List.length := by
    rw [List.map_map]
    apply List.map_congr_left
    intro b _
    simp
  rw [e, fit_self, ← List.map_flatten] at h2
  exact h2

/-! ### Concrete cases -/

/-- Samples with one layer of one dimension. -/
private def sampleRow (x : ℚ) : Row ℚ (fun _ : Fin 1 => 1) := fun _ _ => x

/-- Three samples in batches of two, then four samples in batches of two in the same directory:
`RuntimeError`. -/
example : ∃ f S, Dir f S ∧ ∀ (st : St ℚ (fun _ : Fin 1 => 1)) (train : Data ℚ (fun _ : Fin 1 => 1)),
    cache .identity none (St.new ℚ _ f)
      (Data.of 2 false [sampleRow 1, sampleRow 2, sampleRow 3, sampleRow 4]) = (st, .ok ()) →
    (attribute' .identity none st train (Data.of 1 false [sampleRow 1])).2 = .error .runtimeError := by
  refine ⟨_, _, Dir.cached .identity none
    (Data.of 2 false [sampleRow 1, sampleRow 2, sampleRow 3]) Dir.empty (of_wf (by decide) _ _)
    (by simp [Data.of, batchCount, List.range_succ]), ?_⟩
  intro st train hok
  refine (C162_outcome (Dir.cached .identity none
    (Data.of 2 false [sampleRow 1, sampleRow 2, sampleRow 3]) Dir.empty (of_wf (by decide) _ _)
    (by simp [Data.of, batchCount, List.range_succ])) .identity none (of_wf (by decide) _ _)
    (by simp [Data.of, batchCount, List.range_succ]) hok train _ ?_ (by simp)).2 ?_
  · rw [of_flatten_all (by decide)]; simp
  · intro hf
    have := hf 1 [sampleRow 3, sampleRow 4] 1 (by rfl) (by rfl)
    simp at this

/-- Four samples in batches of two, then three samples in batches of two in the same directory: the
last row appears twice. -/
example : ∃ f S, Dir f S ∧ ∀ (st : St ℚ (fun _ : Fin 1 => 1)) (train : Data ℚ (fun _ : Fin 1 => 1)),
    cache .identity none (St.new ℚ _ f)
      (Data.of 2 false [sampleRow 1, sampleRow 2, sampleRow 3]) = (st, .ok ()) →
    ∃ M, (attribute' .identity none st train (Data.of 1 false [sampleRow 1])).2 = .ok M ∧
      M.r = 4 ∧ M.f 3 0 = 3 := by
  refine ⟨_, _, Dir.cached .identity none
    (Data.of 2 false [sampleRow 1, sampleRow 2, sampleRow 3, sampleRow 4]) Dir.empty
    (of_wf (by decide) _ _) (by simp [Data.of, batchCount, List.range_succ]), ?_⟩
  intro st train hok
  obtain ⟨M, h1, h2⟩ := (C162_outcome (Dir.cached .identity none
    (Data.of 2 false [sampleRow 1, sampleRow 2, sampleRow 3, sampleRow 4]) Dir.empty
    (of_wf (by decide) _ _) (by simp [Data.of, batchCount, List.range_succ])) .identity none
    (of_wf (by decide) _ _) (by simp [Data.of, batchCount, List.range_succ]) hok train
    (Data.of 1 false [sampleRow 1]) (by rw [of_flatten_all (by decide)]; simp) (by simp)).1 (by
      intro k b s hb hs
      rcases k with _ | _ | k
      · cases hb; cases hs; left; rfl
      · cases hb; right; rfl
      · cases hb)
  refine ⟨M, h1, h2.r, ?_⟩
  rw [h2.f 3 0 (sampleRow 3) (sampleRow 1) rfl rfl]
  simp [sampleRow]

end Verif.BlockIF
