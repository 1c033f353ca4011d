import Verif.BlockIF.ScoreLemmas

/-!
# Block-projected influence functions: scores and re-caching (C60, C61, C91, C92)

A sample is given by its compressed gradient (one vector per layer).  The specification of a score is
the plain sum of inner products of the preconditioned training gradient with the test gradient
(`Scores`, `preconditioned`).
-/

namespace Verif.BlockIF

open Verif

variable {K : Type} [Field K] [DecidableEq K] {L : ℕ} {d : Fin L → ℕ}

theorem holds_nil {R : Type} : Holds ([] : List (ℕ × List R)) [] :=
  ⟨by simp [PyDict.keys], fun _ => rfl⟩

theorem attribute_cached {st : St K d} (h : st.cached = true) (hh : Hessian) (damping : Option K)
    (train test : Data K d) :
    attribute' hh damping st train test = attributeCached hh st train test := by
  unfold attribute'
  rw [if_pos h]

omit [DecidableEq K] in
/-- A first `attribute` under Identity: the gradients are copied. -/
theorem attr_copy {bl : List (List (Row K d))} {st : St K d} (hs : Stored bl st) (hne : bl ≠ [])
    (hc : st.comp = true) (hc' : st.cached = true) (hw : st.ifvp = []) :
    ∃ st', Stored bl st' ∧ Ready bl st' ∧ ∀ train test,
      attributeCached .identity st train test = attributeCached .identity st' train test := by
  obtain ⟨st', h1, h2, h3, h4⟩ := ready_ifvp (w0 := []) hs hne hc hc' (by rw [hw]; exact holds_nil)
    (Nat.zero_le _) .identity
  simp only [List.map_id_fun] at h3
  change Ready bl st' at h3
  refine ⟨st', h2, h3, ?_⟩
  intro train test
  have e1 : ∀ s : St K d, s.comp = true → ({ s with comp := true } : St K d) = s := by
    intro s hs
    cases s
    simp only at hs
    rw [hs]
  unfold attributeCached
  simp only [sync_eq hs.layout hne (hs.known hne), sync_eq h2.layout hne (h2.known hne)]
  have n1 : ¬ (st.comp = false ∧ test.batches = []) := by rw [hc]; simp
  have n2 : ¬ (st'.comp = false ∧ test.batches = []) := by rw [h3.comp]; simp
  have n3 : ¬ (st.ifvp ≠ []) := by rw [hw]; simp
  rw [if_neg n1, if_neg n2, e1 st hc, e1 st' h3.comp, if_neg n3, h1, if_pos h3.ifvp_ne]

/-! ### C60 -/

/-- **C60 (entries).** After caching a loader into a fresh directory, `attribute` with any train
loader and any non-empty test loader returns a matrix with one row per cached sample and one column
per test sample, whose entries are the inner products of the preconditioned training gradient and the
test gradient; the preconditioner is formed from all cached samples. -/
theorem C60_entries (h : Hessian) (damping : Option K) {D : Data K d} (hD : D.WF)
    (hne : D.batches ≠ []) {st : St K d} (hok : cache h damping (St.new K d none) D = (st, .ok ()))
    (train test : Data K d) (ht : test.batches.flatten ≠ []) (hd : ∑ l, d l ≠ 0) :
    ∃ M, (attribute' h damping st train test).2 = .ok M ∧
      Scores M (D.batches.flatten.map
        (preconditioned h (damping.getD (1 / 100000)) D.batches.flatten)) test.batches.flatten := by
  have hnil : D.batches.length = ([] : List (List (Row K d))).length →
      D.batches.map List.length = ([] : List (List (Row K d))).map List.length := by
    intro hl
    rw [List.length_eq_zero_iff.1 hl]
  cases h with
  | identity =>
    obtain ⟨s1, h1, h2, h3, h4, h5, h6⟩ := stored_cache stored_new hD hne hnil
    unfold cache at hok
    rw [h1] at hok
    simp only at hok
    have : s1 = st := (Prod.ext_iff.1 hok).1
    subst this
    rw [List.drop_nil, List.append_nil] at h2
    obtain ⟨s2, g1, g2, g3⟩ := attr_copy h2 hne h5 h6 h4
    rw [attribute_cached h6, g3]
    obtain ⟨M, k1, k2⟩ := attr_ready g2 .identity train test ht hd
    refine ⟨M, by rw [k1], ?_⟩
    have : (preconditioned Hessian.identity (damping.getD (1 / 100000)) D.batches.flatten) = id := rfl
    rw [this, List.map_id]
    exact k2
  | efim =>
    obtain ⟨h1, h2⟩ := cache_efim stored_new holds_nil (Nat.zero_le _) damping hD hne hnil hok
    simp only [List.drop_nil, List.append_nil] at h1 h2
    rw [attribute_cached h2.cached]
    obtain ⟨M, k1, k2⟩ := attr_ready h2 .efim train test ht hd
    refine ⟨M, by rw [k1], ?_⟩
    rw [List.map_flatten]
    exact k2

/-- **C60 (success).** With the empirical Fisher matrix, caching into a fresh directory succeeds exactly
when the damped mean outer product of every layer of positive dimension is invertible. -/
theorem C60_succeeds (damping : Option K) {D : Data K d} (hD : D.WF) (hne : D.batches ≠ []) :
    (∃ st, cache .efim damping (St.new K d none) D = (st, .ok ())) ↔
      ∀ l, Active l D.batches.flatten →
        (damped (damping.getD (1 / 100000)) l D.batches.flatten).det ≠ 0 := by
  obtain ⟨s1, h1, h2, h3, h4, h5, h6⟩ := stored_cache stored_new hD hne
    (fun hl => by rw [List.length_eq_zero_iff.1 hl])
  rw [List.drop_nil, List.append_nil] at h2
  have hperm := holds_flatten h2.grads
  have hpre : computePre damping s1 =
      ({ s1 with pre := (preLoop damping (chunks 4 s1.grads) (List.finRange L) s1.pre).1 },
        (preLoop damping (chunks 4 s1.grads) (List.finRange L) s1.pre).2) := by
    unfold computePre
    simp only [sync_eq h2.layout hne (h2.known hne)]
    rw [if_neg (by rw [h2.known hne]; simp)]
  have hiff : (preLoop damping (chunks 4 s1.grads) (List.finRange L) s1.pre).2 = .ok () ↔
      ∀ l, Active l D.batches.flatten →
        (damped (damping.getD (1 / 100000)) l D.batches.flatten).det ≠ 0 := by
    rw [(C56_value damping (g := 4) (by decide) h2.grads.nodup s1.pre).1]
    apply forall_congr'
    intro l
    rw [damped_perm _ _ hperm]
    unfold Active
    have : s1.grads.flatMap Prod.snd = [] ↔ D.batches.flatten = [] :=
      ⟨fun h => by rw [h] at hperm; exact hperm.nil_eq.symm,
        fun h => by rw [h] at hperm; exact hperm.eq_nil⟩
    rw [ne_eq (List.flatMap _ _), this]
  rw [← hiff]
  unfold cache
  rw [h1]
  simp only [hpre]
  rcases hp : (preLoop damping (chunks 4 s1.grads) (List.finRange L) s1.pre).2 with e | u
  · simp
  · simp only [iff_true]
    obtain ⟨s3, g1, -⟩ := ready_ifvp (w0 := []) (st := { s1 with
      pre := (preLoop damping (chunks 4 s1.grads) (List.finRange L) s1.pre).1 })
      ⟨h2.layout, h2.grads, h2.known⟩ hne h5 h6
      (by change Holds s1.ifvp []; rw [h4]; exact holds_nil) (Nat.zero_le _) .efim
    exact ⟨s3, g1⟩

/-- **C60 (no cache).** `attribute` without earlier `cache` caches the train loader it is given. -/
theorem C60_uncached (h : Hessian) (damping : Option K) {train : Data K d} (hD : train.WF)
    (hne : train.batches ≠ []) {st : St K d}
    (hok : cache h damping (St.new K d none) train = (st, .ok ()))
    (test : Data K d) (ht : test.batches.flatten ≠ []) (hd : ∑ l, d l ≠ 0) :
    ∃ M, (attribute' h damping (St.new K d none) train test).2 = .ok M ∧
      Scores M (train.batches.flatten.map
        (preconditioned h (damping.getD (1 / 100000)) train.batches.flatten))
        test.batches.flatten := by
  obtain ⟨M, h1, h2⟩ := C60_entries h damping hD hne hok train test ht hd
  refine ⟨M, ?_, h2⟩
  have hc : st.cached = true := by
    have hnil : train.batches.length = ([] : List (List (Row K d))).length →
        train.batches.map List.length = ([] : List (List (Row K d))).map List.length := by
      intro hl
      rw [List.length_eq_zero_iff.1 hl]
    cases h with
    | identity =>
      obtain ⟨s1, h1, h2, h3, h4, h5, h6⟩ := stored_cache stored_new hD hne hnil
      unfold cache at hok
      rw [h1] at hok
      simp only at hok
      have : s1 = st := (Prod.ext_iff.1 hok).1
      rw [← this]
      exact h6
    | efim =>
      exact (cache_efim stored_new holds_nil (Nat.zero_le _) damping hD hne hnil hok).2.cached
  rw [attribute_cached hc] at h1
  unfold attribute'
  rw [if_neg (by simp [St.new]), hok]
  exact h1

/-- **C60 (batching).** For samples served in their order without `drop_last`, the batch size does
not matter. -/
theorem C60_batching (h : Hessian) (damping : Option K) {bs bs' : ℕ} (hbs : 0 < bs) (hbs' : 0 < bs')
    {data : List (Row K d)} (hdata : data ≠ []) {st st' : St K d}
    (hok : cache h damping (St.new K d none) (Data.of bs false data) = (st, .ok ()))
    (hok' : cache h damping (St.new K d none) (Data.of bs' false data) = (st', .ok ()))
    (train test : Data K d) (ht : test.batches.flatten ≠ []) (hd : ∑ l, d l ≠ 0) :
    ∃ M M', (attribute' h damping st train test).2 = .ok M ∧
      (attribute' h damping st' train test).2 = .ok M' ∧ M.r = data.length ∧ M.r = M'.r ∧
      M.c = M'.c ∧ ∀ i j, i < M.r → j < M.c → M.f i j = M'.f i j := by
  have hne : ∀ b, 0 < b → (Data.of b false data).batches ≠ [] := by
    intro b hb hc
    have := of_flatten_all hb data
    rw [hc] at this
    exact hdata this.symm
  obtain ⟨M, h1, h2⟩ := C60_entries h damping (of_wf hbs false data) (hne bs hbs) hok train test ht hd
  obtain ⟨M', h1', h2'⟩ := C60_entries h damping (of_wf hbs' false data) (hne bs' hbs') hok' train
    test ht hd
  rw [of_flatten_all hbs] at h2
  rw [of_flatten_all hbs'] at h2'
  refine ⟨M, M', h1, h1', by rw [h2.r, List.length_map], by rw [h2.r, h2'.r], by rw [h2.c, h2'.c], ?_⟩
  intro i j hi hj
  rw [h2.r] at hi
  rw [h2.c] at hj
  rw [h2.f i j _ _ (List.getElem?_eq_getElem hi) (List.getElem?_eq_getElem hj),
    h2'.f i j _ _ (List.getElem?_eq_getElem hi) (List.getElem?_eq_getElem hj)]

/-- **C60 (no test samples).** Without test samples the result has one row per sample of the *passed*
train loader and one column per test sample. -/
theorem C60_empty_test {w : List (List (Row K d))} {st : St K d} (hr : Ready w st) (h : Hessian)
    (damping : Option K) (train test : Data K d) (ht : test.batches.flatten = []) :
    (attribute' h damping st train test).2 =
      .ok (Mat.zeros train.spec.samples test.spec.samples) := by
  have e1 : ({ st with comp := true } : St K d) = st := by
    have := hr.comp
    cases st
    simp only at this
    rw [this]
  rw [attribute_cached hr.cached]
  unfold attributeCached
  simp only [sync_eq hr.layout hr.ne hr.known]
  rw [if_neg (by rw [hr.comp]; simp), e1, if_pos hr.ifvp_ne]
  simp only
  rw [if_pos (Or.inl ht)]

/-! ### C61, C91: histories under the empirical Fisher matrix -/

/-- States reached by successful calls on a fresh directory with the empirical Fisher matrix; `bl` are
the batches a reader of the storage finds: a new loader replaces batches by index. -/
inductive Hist (damping : Option K) : List (List (Row K d)) → St K d → Prop
  | start : Hist damping [] (St.new K d none)
  | cache {bl st st'} {D : Data K d} : Hist damping bl st → D.WF → D.batches ≠ [] →
      (D.batches.length = bl.length → D.batches.map List.length = bl.map List.length) →
      cache .efim damping st D = (st', .ok ()) →
      Hist damping (D.batches ++ bl.drop D.batches.length) st'
  | attr {bl st} (train test : Data K d) : Hist damping bl st → bl ≠ [] →
      Hist damping bl (attribute' .efim damping st train test).1

theorem hist_inv {damping : Option K} {bl : List (List (Row K d))} {st : St K d}
    (h : Hist damping bl st) :
    Stored bl st ∧ ∃ w, Holds st.ifvp w ∧ w.length = bl.length ∧ (bl ≠ [] →
      Ready (bl.map (List.map
        (preconditioned .efim (damping.getD (1 / 100000)) bl.flatten))) st) := by
  induction h with
  | start => exact ⟨stored_new, [], holds_nil, rfl, fun h => absurd rfl h⟩
  | cache h1 h2 h3 h4 h5 ih =>
    obtain ⟨i1, w, i2, i3, -⟩ := ih
    obtain ⟨j1, j2⟩ := cache_efim i1 i2 i3.le damping h2 h3 h4 h5
    exact ⟨j1, _, j2.ifvp, by simp, fun _ => j2⟩
  | @attr bl st train test h1 h2 ih =>
    obtain ⟨i1, w, i2, i3, i4⟩ := ih
    have i5 := i4 h2
    rw [attribute_cached i5.cached, attr_state i5]
    exact ⟨i1, w, i2, i3, i4⟩

/-- **C61/C91 (Fisher).** After any history of successful calls, `attribute` scores the batches found
in the storage — the last loader's, followed by older batches of higher index —, preconditioned with
the statistics of exactly those samples. -/
theorem C91_merged {damping : Option K} {bl : List (List (Row K d))} {st : St K d}
    (h : Hist damping bl st) (hne : bl ≠ []) (train test : Data K d)
    (ht : test.batches.flatten ≠ []) (hd : ∑ l, d l ≠ 0) :
    ∃ M, (attribute' .efim damping st train test).2 = .ok M ∧
      Scores M (bl.flatten.map (preconditioned .efim (damping.getD (1 / 100000)) bl.flatten))
        test.batches.flatten := by
  obtain ⟨-, w, -, -, h4⟩ := hist_inv h
  have hr := h4 hne
  rw [attribute_cached hr.cached]
  obtain ⟨M, k1, k2⟩ := attr_ready hr .efim train test ht hd
  refine ⟨M, by rw [k1], ?_⟩
  rw [List.map_flatten]
  exact k2

/-- **C61 (Fisher).** If the last cached loader has at least as many batches as any earlier one, the
scores are those of the last loader alone. -/
theorem C61_fisher {damping : Option K} {bl : List (List (Row K d))} {st st' : St K d}
    (h : Hist damping bl st) {D : Data K d} (hD : D.WF) (hne : D.batches ≠ [])
    (hs : D.batches.length = bl.length → D.batches.map List.length = bl.map List.length)
    (hle : bl.length ≤ D.batches.length) (hok : cache .efim damping st D = (st', .ok ()))
    (train test : Data K d) (ht : test.batches.flatten ≠ []) (hd : ∑ l, d l ≠ 0) :
    ∃ M, (attribute' .efim damping st' train test).2 = .ok M ∧
      Scores M (D.batches.flatten.map
        (preconditioned .efim (damping.getD (1 / 100000)) D.batches.flatten))
        test.batches.flatten := by
  have h1 := Hist.cache h hD hne hs hok
  rw [List.drop_eq_nil_of_le hle, List.append_nil] at h1
  exact C91_merged h1 hne train test ht hd

/-- **C91 (stale tail).** After caching `A` and then `B` with fewer batches, the result still has rows
for the batches of `A` beyond those of `B`, and every score uses their statistics. -/
theorem C91_stale_tail {damping : Option K} {A B : Data K d} (hA : A.WF) (hB : B.WF)
    (hlt : B.batches.length < A.batches.length) (hB0 : B.batches ≠ []) {st st' : St K d}
    (h1 : cache .efim damping (St.new K d none) A = (st, .ok ()))
    (h2 : cache .efim damping st B = (st', .ok ())) (train test : Data K d)
    (ht : test.batches.flatten ≠ []) (hd : ∑ l, d l ≠ 0) :
    let all := B.batches.flatten ++ (A.batches.drop B.batches.length).flatten
    ∃ M, (attribute' .efim damping st' train test).2 = .ok M ∧
      Scores M (all.map (preconditioned .efim (damping.getD (1 / 100000)) all))
        test.batches.flatten := by
  intro all
  have hA0 : A.batches ≠ [] := by
    intro h
    rw [h] at hlt
    simp at hlt
  have g1 := Hist.cache Hist.start hA hA0 (fun hl => by rw [List.length_eq_zero_iff.1 hl]) h1
  rw [List.drop_nil, List.append_nil] at g1
  have g2 := Hist.cache g1 hB hB0 (fun hl => by omega) h2
  have g3 := C91_merged g2 (fun h => hB0 (List.append_eq_nil_iff.1 h).1) train test ht hd
  rw [List.flatten_append] at g3
  exact g3

/-! ### C61: histories with the identity -/

/-- A call on the attributor with Identity. -/
inductive Call (K : Type) {L : ℕ} (d : Fin L → ℕ)
  | recache (D : Data K d)
  | score (train test : Data K d)

noncomputable def Call.run (damping : Option K) (st : St K d) : Call K d → St K d
  | .recache D => (cache .identity damping st D).1
  | .score train test => (attribute' .identity damping st train test).1

omit [Field K] [DecidableEq K] in
theorem cacheGrads_ifvp (st : St K d) (D : Data K d) : (cacheGrads st D).1.ifvp = st.ifvp := by
  unfold cacheGrads
  simp only
  split_ifs
  · rfl
  · exact (cacheLoop D.batches.zipIdx _).2.2.1

theorem cache_identity (damping : Option K) (st : St K d) (D : Data K d) :
    cache .identity damping st D = cacheGrads st D := by
  unfold cache
  rcases cacheGrads st D with ⟨s, e | u⟩ <;> rfl

omit [DecidableEq K] in
theorem attributeCached_ifvp (st : St K d) (h : st.ifvp ≠ []) (train test : Data K d) :
    (attributeCached .identity st train test).1.ifvp = st.ifvp := by
  unfold attributeCached
  simp only
  by_cases h1 : st.sync.comp = false ∧ test.batches = []
  · rw [if_pos h1]; rfl
  · rw [if_neg h1, if_pos (show st.sync.ifvp ≠ [] from h)]
    simp only
    split_ifs <;> rfl

/-- **C61 (frozen).** Under Identity the stored scores' basis, once present, never changes again:
whatever calls follow. -/
theorem C61_frozen (damping : Option K) (calls : List (Call K d)) (st : St K d) (h : st.ifvp ≠ []) :
    (calls.foldl (Call.run damping) st).ifvp = st.ifvp := by
  induction calls generalizing st with
  | nil => rfl
  | cons c calls ih =>
    have e : (Call.run damping st c).ifvp = st.ifvp := by
      cases c with
      | recache D =>
        simp only [Call.run]
        rw [cache_identity, cacheGrads_ifvp]
      | score train test =>
        simp only [Call.run]
        unfold attribute'
        split_ifs
        · exact attributeCached_ifvp st h train test
        · rcases hc : cache Hessian.identity damping st train with ⟨s, e | u⟩
          · have := cacheGrads_ifvp st train
            rw [← cache_identity damping, hc] at this
            exact this
          · have := cacheGrads_ifvp st train
            rw [← cache_identity damping, hc] at this
            simp only at this ⊢
            rw [attributeCached_ifvp s (by rw [this]; exact h), this]
    rw [List.foldl_cons, ih _ (by rw [e]; exact h), e]

/-- Later calls under Identity, with loaders of the given batch sizes. -/
inductive Again (damping : Option K) (sizes : List ℕ) (st : St K d) : St K d → Prop
  | refl : Again damping sizes st st
  | cache {st'} {D : Data K d} : Again damping sizes st st' → D.WF →
      D.batches.map List.length = sizes →
      Again damping sizes st (cache .identity damping st' D).1
  | attr {st'} (train test : Data K d) : Again damping sizes st st' →
      Again damping sizes st (attribute' .identity damping st' train test).1

omit [Field K] [DecidableEq K] in
theorem layout_sizes {bl bl' : List (List (Row K d))} {m : Meta} (h : Layout bl m)
    (e : bl.map List.length = bl'.map List.length) : Layout bl' m := by
  have hl : bl.length = bl'.length := by simpa using congrArg List.length e
  refine ⟨by rw [h.keys, hl], ?_, ?_, h.pending⟩
  · intro k b hb
    have hk : k < bl.length := by rw [hl]; exact (List.getElem?_eq_some_iff.1 hb).1
    have h1 : ((bl'.map List.length)[k]? : Option ℕ) = some b.length := by
      rw [List.getElem?_map, hb]; rfl
    rw [← e, List.getElem?_map, List.getElem?_eq_getElem hk] at h1
    have h2 : bl[k].length = b.length := by simpa using h1
    rw [h.get k bl[k] (List.getElem?_eq_getElem hk), h2]
    simp only [List.length_flatten, List.map_take, e]
  · rw [h.total, List.length_flatten, List.length_flatten, e]

theorem again_inv {damping : Option K} {w : List (List (Row K d))} {st st' : St K d}
    (h : Again damping (w.map List.length) st st') (hr : Ready w st) (hs : ∃ bl, Stored bl st ∧
      bl.map List.length = w.map List.length) :
    Ready w st' ∧ ∃ bl, Stored bl st' ∧ bl.map List.length = w.map List.length := by
  induction h with
  | refl => exact ⟨hr, hs⟩
  | @cache st' D h1 h2 h3 ih =>
    obtain ⟨i1, bl, i2, i3⟩ := ih
    have hlen : D.batches.length = bl.length := by
      simpa using congrArg List.length (h3.trans i3.symm)
    have hne : D.batches ≠ [] := by
      intro h0
      rw [h0] at h3
      exact hr.ne (List.map_eq_nil_iff.1 h3.symm)
    obtain ⟨s1, g1, g2, g3, g4, g5, g6⟩ := stored_cache i2 h2 hne (fun _ => h3.trans i3.symm)
    rw [cache_identity, g1]
    rw [hlen, List.drop_length, List.append_nil] at g2
    refine ⟨⟨layout_sizes g2.layout h3, ?_, hr.ne, g2.known hne, g5, g6⟩, _, g2, h3⟩
    simp only
    rw [g4]
    exact i1.ifvp
  | attr train test h1 ih =>
    obtain ⟨i1, bl, i2, i3⟩ := ih
    rw [attribute_cached i1.cached, attr_state i1]
    exact ⟨i1, bl, i2, i3⟩

/-- **C61 (identity).** After `cache(A)` and one `attribute`, later `cache` calls with loaders of the
same batch sizes — whatever their samples — and `attribute` calls change nothing: the scores are those
of `A`. -/
theorem C61_identity {damping : Option K} {A : Data K d} (hA : A.WF) (hne : A.batches ≠ [])
    (train0 test0 : Data K d) {st : St K d}
    (hst : Again damping (A.batches.map List.length)
      (attribute' .identity damping (cache .identity damping (St.new K d none) A).1 train0 test0).1 st)
    (train test : Data K d) (ht : test.batches.flatten ≠ []) (hd : ∑ l, d l ≠ 0) :
    ∃ M, (attribute' .identity damping st train test).2 = .ok M ∧
      Scores M A.batches.flatten test.batches.flatten := by
  obtain ⟨s1, h1, h2, h3, h4, h5, h6⟩ := stored_cache stored_new hA hne
    (fun hl => by rw [List.length_eq_zero_iff.1 hl])
  rw [List.drop_nil, List.append_nil] at h2
  obtain ⟨s2, g1, g2, g3⟩ := attr_copy h2 hne h5 h6 h4
  rw [cache_identity, h1] at hst
  simp only at hst
  rw [attribute_cached h6, g3, attr_state g2] at hst
  obtain ⟨k1, -⟩ := again_inv hst g2 ⟨_, g1, rfl⟩
  rw [attribute_cached k1.cached]
  obtain ⟨M, m1, m2⟩ := attr_ready k1 .identity train test ht hd
  exact ⟨M, by rw [m1], m2⟩

/-- **C92 (zero rows).** Under Identity: after `cache(A)` and one `attribute`, caching a loader `B`
with more batches whose first batches have the sizes of `A`'s gives a matrix with a row per sample of
`B`, where the first rows are the scores of `A` and all further rows are zero. -/
theorem C92_zero_rows {damping : Option K} {A B : Data K d} (hA : A.WF) (hne : A.batches ≠ [])
    (hB : B.WF) (hlt : A.batches.length < B.batches.length)
    (hsz : (B.batches.take A.batches.length).map List.length = A.batches.map List.length)
    (train0 test0 train test : Data K d) (ht : test.batches.flatten ≠ []) (hd : ∑ l, d l ≠ 0) :
    let st1 := (cache .identity damping (St.new K d none) A).1
    let st2 := (attribute' .identity damping st1 train0 test0).1
    let st3 := (cache .identity damping st2 B).1
    ∃ M, (attribute' .identity damping st3 train test).2 = .ok M ∧
      M.r = B.batches.flatten.length ∧ M.c = test.batches.flatten.length ∧
      (∀ i j a b, A.batches.flatten[i]? = some a → test.batches.flatten[j]? = some b →
        M.f i j = ∑ l, ∑ k, a l k * b l k) ∧
      (∀ i j, A.batches.flatten.length ≤ i → M.f i j = 0) := by
  intro st1 st2 st3
  obtain ⟨s1, h1, h2, h3, h4, h5, h6⟩ := stored_cache stored_new hA hne
    (fun hl => by rw [List.length_eq_zero_iff.1 hl])
  rw [List.drop_nil, List.append_nil] at h2
  obtain ⟨s2, g1, g2, g3⟩ := attr_copy h2 hne h5 h6 h4
  have e1 : st1 = s1 := by simp only [st1]; rw [cache_identity, h1]
  have e2 : st2 = s2 := by
    simp only [st2, e1]
    rw [attribute_cached h6, g3, attr_state g2]
  have hB0 : B.batches ≠ [] := by
    intro h
    rw [h] at hlt
    simp at hlt
  obtain ⟨s3, k1, k2, k3, k4, k5, k6⟩ := stored_cache g1 hB hB0 (fun hl => by omega)
  have e3 : st3 = s3 := by
    simp only [st3, e2]
    rw [cache_identity, k1]
  rw [List.drop_eq_nil_of_le hlt.le, List.append_nil] at k2
  have hift : Holds s3.ifvp A.batches := by rw [k4]; exact g2.ifvp
  have hine : s3.ifvp ≠ [] := by rw [k4]; exact g2.ifvp_ne
  have hszk : ∀ (k : ℕ) (a b : List (Row K d)), A.batches[k]? = some a → B.batches[k]? = some b → a.length = b.length := by
    intro k a b ha hb
    have hk := (List.getElem?_eq_some_iff.1 ha).1
    have h7 : ((B.batches.take A.batches.length).map List.length)[k]? = some b.length := by
      rw [List.getElem?_map, List.getElem?_take_of_lt hk, hb]; rfl
    rw [hsz, List.getElem?_map, ha] at h7
    exact Option.some.inj h7
  have hpre : ∀ k, k ≤ A.batches.length →
      (B.batches.take k).flatten.length = (A.batches.take k).flatten.length := by
    intro k hk
    rw [List.length_flatten, List.length_flatten, List.map_take, List.map_take, ← hsz, ← List.map_take,
      ← List.map_take, List.take_take, Nat.min_eq_left hk]
  have hlen : ∀ k rows r, PyDict.get? s3.ifvp k = some rows → PyDict.get? s3.md.mapping k = some r →
      rows.length = (r.2 - r.1).toNat := by
    intro k rows r m1 m2
    rw [hift.get k] at m1
    rw [layout_mapping k2.layout] at m2
    rcases hb : B.batches[k]? with _ | b
    · rw [hb] at m2; cases m2
    · rw [hb] at m2
      cases m2
      rw [hszk k _ _ m1 hb]
      simp
  obtain ⟨M, n1, n2, n3, n4, n5⟩ := scoreLoop_spec (g := 2) (by decide) hift.nodup
    (layout_disjoint k2.layout) hlen test.batches.flatten
    (Mat.zeros s3.md.totalSamples.toNat test.batches.flatten.length)
  refine ⟨M, ?_, ?_, ?_, ?_, ?_⟩
  · have hst : ({ s3 with comp := true } : St K d) = s3 := by
      have := k5
      cases s3
      simp only at this
      rw [this]
    rw [e3, attribute_cached k6]
    unfold attributeCached
    simp only [sync_eq k2.layout hB0 (k2.known hB0)]
    rw [if_neg (by rw [k5]; simp), hst, if_pos hine]
    simp only
    rw [if_neg (by simp [ht, hd])]
    exact n1
  · rw [n2]
    change s3.md.totalSamples.toNat = _
    unfold Meta.totalSamples
    rw [k2.layout.total]
    rfl
  · rw [n3]; rfl
  · intro i j a b hi hj
    obtain ⟨k, rows, o, hk, ho, hio⟩ := flatten_locate _ _ _ hi
    have hkl := (List.getElem?_eq_some_iff.1 hk).1
    have hkB : k < B.batches.length := by omega
    have hb := List.getElem?_eq_getElem hkB
    have hm := layout_mapping k2.layout k
    rw [hb] at hm
    have ho' := (List.getElem?_eq_some_iff.1 ho).1
    have hj' := (List.getElem?_eq_some_iff.1 hj).1
    have hp := hpre k hkl.le
    have hl := hszk k _ _ hk hb
    rw [n4 k rows _ (by rw [hift.get k, hk]) hm i j (by simp only; omega) (by simp only; omega) hj']
    have e1 : ((i : ℤ) - ((B.batches.take k).flatten.length : ℤ)).toNat = o := by omega
    simp only [e1]
    rw [List.getD_eq_getElem?_getD, List.getD_eq_getElem?_getD, ho, hj]
    rfl
  · intro i j hi
    rw [n5 i j]
    · rfl
    · intro k rows r m1 m2 hcon
      rw [hift.get k] at m1
      rw [layout_mapping k2.layout] at m2
      have hkl := (List.getElem?_eq_some_iff.1 m1).1
      rcases hb : B.batches[k]? with _ | b
      · rw [hb] at m2; cases m2
      · rw [hb] at m2
        cases m2
        have hp := hpre k hkl.le
        have hl := hszk k _ _ m1 hb
        have := take_flatten_le A.batches (k := k) (k' := A.batches.length) hkl m1
        rw [List.take_length] at this
        simp only at hcon
        omega

/-! ### Concrete cases -/

/-- One layer of dimension 1. -/
def one (a : ℚ) : Row ℚ (fun _ : Fin 1 => 1) := fun _ _ => a

/-- Caching three samples in batches of two with the empirical Fisher matrix succeeds. -/
example : ∃ st, cache .efim (some (1 / 2)) (St.new ℚ (fun _ : Fin 1 => 1) none)
    (Data.of 2 false [one 1, one 2, one 3]) = (st, .ok ()) := by
  rw [C60_succeeds (some (1 / 2)) (of_wf (by decide) false [one 1, one 2, one 3]) (by decide)]
  intro l _
  refine C56_exists (by norm_num) l ⟨one 1, ?_, fun h => ?_⟩
  · rw [of_flatten_all (by decide)]
    simp
  · have := congrFun h 0
    simp [one] at this

/-- With Identity: cache `[1, 2, 3]` (batches of two), score, cache `[7, 8, 9]`: still the scores of
the first loader. -/
example : ∃ M, (attribute' .identity none (cache .identity none
      (attribute' .identity none (cache .identity none (St.new ℚ (fun _ : Fin 1 => 1) none)
        (Data.of 2 false [one 1, one 2, one 3])).1 (Data.of 2 false []) (Data.of 2 false [])).1
      (Data.of 2 false [one 7, one 8, one 9])).1
      (Data.of 2 false [one 7, one 8, one 9]) (Data.of 2 false [one 10])).2 = .ok M ∧ M.f 0 0 = 10 := by
  obtain ⟨M, h1, h2⟩ := C61_identity (damping := none) (of_wf (bs := 2) (by decide) false
    [one 1, one 2, one 3]) (by decide) (Data.of 2 false []) (Data.of 2 false [])
    (Again.cache Again.refl (of_wf (bs := 2) (by decide) false [one 7, one 8, one 9]) (by decide))
    (Data.of 2 false [one 7, one 8, one 9]) (Data.of 2 false [one 10]) (by decide) (by decide)
  refine ⟨M, h1, ?_⟩
  rw [h2.f 0 0 (one 1) (one 10) rfl rfl]
  simp [one]

end Verif.BlockIF
