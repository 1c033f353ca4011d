import Verif.BlockIF.DiskLemmas

/-!
# C131: disk storage gives the scores of in-memory storage

One run: the gradients of a loader are stored through the disk manager, read back, preconditioned, stored
again and read back for the scores; every schedule of the storing thread and the writers is covered.  The
reference is the run with in-memory storage.
-/

namespace Verif.BlockIF

open Verif

variable {K : Type} [Field K] [DecidableEq K] {L : ℕ} {d : Fin L → ℕ} {cfg : Disk.Cfg}

/-- Specification: two results are the same - both raise the same exception, or both are matrices of the
same shape with the same entries. -/
def SameScores : Except Err (Mat K) → Except Err (Mat K) → Prop
  | .error e, .error e' => e = e'
  | .ok M, .ok M' => M.r = M'.r ∧ M.c = M'.c ∧ ∀ i j, i < M.r → j < M.c → M.f i j = M'.f i j
  | _, _ => False

omit [DecidableEq K] in
theorem Scores.unique {M M' : Mat K} {rows test : List (Row K d)} (h : Scores M rows test)
    (h' : Scores M' rows test) : SameScores (.ok M) (.ok M') := by
  refine ⟨h.r.trans h'.r.symm, h.c.trans h'.c.symm, ?_⟩
  intro i j hi hj
  rw [h.r] at hi
  rw [h.c] at hj
  rw [h.f i j _ _ (List.getElem?_eq_getElem hi) (List.getElem?_eq_getElem hj),
    h'.f i j _ _ (List.getElem?_eq_getElem hi) (List.getElem?_eq_getElem hj)]

/-- The batches of a loader by their indices. -/
def indexed {R : Type} (bl : List (List R)) : List (ℕ × List R) := bl.zipIdx.map fun p => (p.2, p.1)

theorem indexed_map {R : Type} (bl : List (List R)) (f : R → R) :
    (indexed bl).map (fun p => (p.1, p.2.map f)) = indexed (bl.map (List.map f)) := by
  unfold indexed
  rw [List.zipIdx_map, List.map_map, List.map_map]
  rfl

theorem holds_perm {R : Type} {c : List (ℕ × List R)} {bl : List (List R)} (h : Holds c bl) :
    c.Perm (indexed bl) := by
  have hc : c.Nodup := List.Nodup.of_map _ h.nodup
  have hz : (indexed bl).Nodup := by
    apply List.Nodup.of_map Prod.fst
    unfold indexed
    rw [List.map_map]
    have : (Prod.fst ∘ fun p : List R × ℕ => (p.2, p.1)) = Prod.snd := rfl
    rw [this, List.zipIdx_map_snd]
    exact List.nodup_range'
  rw [List.perm_ext_iff_of_nodup hc hz]
  rintro ⟨k, b⟩
  have h1 : (k, b) ∈ c ↔ PyDict.get? c k = some b :=
    ⟨fun hm => PyDict.get?_of_mem h.nodup hm, PyDict.mem_of_get?⟩
  rw [h1, h.get k]
  unfold indexed
  simp only [List.mem_map, Prod.mk.injEq, Prod.exists]
  constructor
  · intro hb
    exact ⟨b, k, List.mem_zipIdx_iff_getElem?.2 hb, rfl, rfl⟩
  · rintro ⟨b', k', hm, rfl, rfl⟩
    exact List.mem_zipIdx_iff_getElem?.1 hm

/-- **C131** (same scores).  Cache a loader with disk storage in an empty directory: a schedule of the
storing thread and the writers stores its batches and `finalize_batch_range` returns.  Then the loads of
the gradient files succeed.  If computing the preconditioned gradients from them raises, so does the run
with in-memory storage, with the same exception.  Otherwise let a further schedule store these
preconditioned gradients and return from `finalize_batch_range`: the loads of their files succeed, and the
scores computed from them are those of the run with in-memory storage. -/
theorem C131_same_scores (h : Hessian) (damping : Option K) {D : Data K d} (hD : D.WF)
    (hne : D.batches ≠ []) (test : Data K d) (ht : test.batches.flatten ≠ []) (hd0 : ∑ l, d l ≠ 0)
    {md : Meta} (hmd : (cacheGrads (St.new K d none) D).1.md = md)
    (acts1 : List (Disk.Act (Row K d))) {s1 s1' : Disk.St (Row K d)}
    (hex1 : Disk.exec cfg (Disk.St.init (fun _ => none) (fun _ => none)) acts1 = some s1)
    (hd1 : Disk.Disciplined s1.ev) (ho1 : Disk.OneRound s1.ev) (hr1 : Disk.Returns cfg s1 s1')
    (hst1 : (Disk.storedOf .gradients s1.ev).Perm (indexed D.batches))
    (ls1 : List Disk.Path) (hls1 : ls1.Nodup) (hall1 : ∀ p, p ∈ ls1 ↔ (s1'.metaFile p).isSome) :
    ∃ items1, (Disk.chunkInfo ⟨s1'.dataFile, s1'.metaFile, ls1⟩ .gradients none).mapM
        (Disk.loadFile ⟨s1'.dataFile, s1'.metaFile, ls1⟩ none) = .ok items1 ∧
      (∀ e, diskIfvp h damping (PyDict.keys md.mapping) items1 = .error e →
        (attribute' h damping (St.new K d none) D test).2 = .error e) ∧
      ∀ calls, diskIfvp h damping (PyDict.keys md.mapping) items1 = .ok calls →
        ∀ (acts2 : List (Disk.Act (Row K d))) (s2 s2' : Disk.St (Row K d)),
          Disk.exec cfg s1' acts2 = some s2 → Disk.Disciplined s2.ev → Disk.OneRound s2.ev →
          Disk.Returns cfg s2 s2' → (Disk.storedOf .ifvp s2.ev).Perm calls →
          ∀ ls2 : List Disk.Path, ls2.Nodup → (∀ p, p ∈ ls2 ↔ (s2'.metaFile p).isSome) →
          ∃ items2, (Disk.chunkInfo ⟨s2'.dataFile, s2'.metaFile, ls2⟩ .ifvp none).mapM
              (Disk.loadFile ⟨s2'.dataFile, s2'.metaFile, ls2⟩ none) = .ok items2 ∧
            SameScores (diskScores md items2 test.batches.flatten)
              (attribute' h damping (St.new K d none) D test).2 := by
  obtain ⟨items1, hi1, hp1⟩ := Disk.presents_loader acts1 hex1 hd1 ho1 hr1 ls1 hls1 hall1 .gradients
  refine ⟨items1, hi1, ?_⟩
  obtain ⟨st, h1, h2, h3, h4, h5, h6⟩ := stored_cache stored_new hD hne
    (fun hl => by rw [List.length_eq_zero_iff.1 hl])
  rw [List.drop_nil, List.append_nil] at h2
  rw [h1] at hmd
  simp only at hmd
  subst hmd
  have hkeys : ∀ k, k ∈ PyDict.keys st.md.mapping ↔ k < D.batches.length := by
    intro k
    rw [mapping_keys, flush_of_empty h2.layout.pending, h2.layout.keys, List.mem_range]
  have hknown : ∀ p ∈ Disk.storedOf .gradients s1.ev, p.1 ∈ PyDict.keys st.md.mapping := by
    intro p hp
    have := hst1.mem_iff.1 hp
    unfold indexed at this
    obtain ⟨q, hq, rfl⟩ := List.mem_map.1 this
    rw [hkeys]
    exact (List.getElem?_eq_some_iff.1 (List.mem_zipIdx_iff_getElem?.1 hq)).1
  have hpre : preLoop damping (Disk.loaderPass 4 items1) (List.finRange L) (fun _ => none) =
      preLoop damping (chunks 4 st.grads) (List.finRange L) st.pre := by
    rw [h3]
    exact preLoop_congr damping (fun l => accumulate_presents l (hp1 4 (by decide))
      (presents_chunks (by decide) h2.grads.nodup) (hst1.trans (holds_perm h2.grads).symm)) _ _
  -- the second half, for the rows mapped by `f`
  have key : ∀ (f : Row K d → Row K d) (cs : List (List (Row K d) × List (ℕ × ℕ × ℕ))),
      Presents cs (Disk.storedOf .gradients s1.ev) →
      ∀ (acts2 : List (Disk.Act (Row K d))) (s2 s2' : Disk.St (Row K d)),
          Disk.exec cfg s1' acts2 = some s2 → Disk.Disciplined s2.ev → Disk.OneRound s2.ev →
          Disk.Returns cfg s2 s2' →
          (Disk.storedOf .ifvp s2.ev).Perm (ifvpCalls (PyDict.keys st.md.mapping) f cs) →
          ∀ ls2 : List Disk.Path, ls2.Nodup → (∀ p, p ∈ ls2 ↔ (s2'.metaFile p).isSome) →
          ∃ items2, (Disk.chunkInfo ⟨s2'.dataFile, s2'.metaFile, ls2⟩ .ifvp none).mapM
              (Disk.loadFile ⟨s2'.dataFile, s2'.metaFile, ls2⟩ none) = .ok items2 ∧
            ∃ M, diskScores st.md items2 test.batches.flatten = .ok M ∧
              Scores M (D.batches.map (List.map f)).flatten test.batches.flatten := by
    intro f cs hcs acts2 s2 s2' hex2 hd2 ho2 hr2 hst2 ls2 hls2 hall2
    have hex : Disk.exec cfg (Disk.St.init (fun _ => none) (fun _ => none))
        (acts1 ++ .prod :: acts2) = some s2 := by
      rw [Disk.exec_append, hex1]
      change Disk.exec cfg s1 (.prod :: acts2) = _
      rw [Disk.exec_cons, hr1.1]
      exact hex2
    obtain ⟨items2, hi2, hp2⟩ := Disk.presents_loader _ hex hd2 ho2 hr2 ls2 hls2 hall2 .ifvp
    refine ⟨items2, hi2, ?_⟩
    have hperm : (Disk.storedOf .ifvp s2.ev).Perm (indexed (D.batches.map (List.map f))) := by
      rw [← indexed_map]
      exact (hst2.trans (ifvpCalls_perm hcs hknown f)).trans (hst1.map _)
    have e : (D.batches.map (List.map f)).map List.length = D.batches.map List.length := by
      rw [List.map_map]
      apply List.map_congr_left
      intro b _
      simp
    have hlay : Layout (D.batches.map (List.map f)) st.md := by
      refine ⟨by rw [h2.layout.keys, List.length_map], ?_, ?_, h2.layout.pending⟩
      · intro k b hb
        rw [List.getElem?_map] at hb
        rcases hbk : D.batches[k]? with _ | b0
        · rw [hbk] at hb; cases hb
        · rw [hbk] at hb
          cases hb
          rw [h2.layout.get k b0 hbk]
          simp only [List.length_flatten, List.map_take, e, List.length_map]
      · rw [h2.layout.total, List.length_flatten, List.length_flatten, e]
    exact scores_presents hlay ⟨(hp2 2 (by decide)).rows, (hp2 2 (by decide)).perm.trans hperm⟩ _
  have hnc : (St.new K d none).cached = false := rfl
  cases h with
  | identity =>
    refine ⟨fun e he => (by cases he), ?_⟩
    intro calls hcalls acts2 s2 s2' hex2 hd2 ho2 hr2 hst2 ls2 hls2 hall2
    cases hcalls
    obtain ⟨items2, hi2, M, hM, hS⟩ := key id _ (hp1 1 (by decide)) acts2 s2 s2' hex2 hd2 ho2 hr2 hst2
      ls2 hls2 hall2
    refine ⟨items2, hi2, ?_⟩
    obtain ⟨s', g1, g2, g3⟩ := attr_copy h2 hne h5 h6 h4
    obtain ⟨M', k1, k2⟩ := attr_ready g2 .identity D test ht hd0
    have hatt : attribute' .identity damping (St.new K d none) D test = (s', .ok M') := by
      unfold attribute'
      rw [hnc, if_neg (by simp)]
      unfold cache
      rw [h1]
      simp only
      rw [g3, k1]
    rw [hM, hatt]
    rw [List.map_id_fun, List.map_id] at hS
    exact hS.unique k2
  | efim =>
    have hcp : computePre damping st =
        ({ st with pre := (preLoop damping (chunks 4 st.grads) (List.finRange L) st.pre).1 },
          (preLoop damping (chunks 4 st.grads) (List.finRange L) st.pre).2) := by
      unfold computePre
      simp only [sync_eq h2.layout hne (h2.known hne)]
      rw [if_neg (by rw [h2.known hne]; simp)]
    unfold diskIfvp
    simp only
    rw [hpre]
    rcases hp : preLoop damping (chunks 4 st.grads) (List.finRange L) st.pre with ⟨p, e | u⟩
    · rw [hp] at hcp
      refine ⟨?_, fun calls hc => (by cases hc)⟩
      intro e' he'
      cases he'
      unfold attribute'
      rw [hnc, if_neg (by simp)]
      unfold cache
      rw [h1]
      simp only [hcp]
    · rw [hp] at hcp
      refine ⟨fun e he => (by cases he), ?_⟩
      intro calls hcalls acts2 s2 s2' hex2 hd2 ho2 hr2 hst2 ls2 hls2 hall2
      cases hcalls
      obtain ⟨items2, hi2, M, hM, hS⟩ := key (applyPre p) _ (hp1 4 (by decide)) acts2 s2 s2' hex2 hd2
        ho2 hr2 hst2 ls2 hls2 hall2
      refine ⟨items2, hi2, ?_⟩
      obtain ⟨s3, g1, g2, g3, -⟩ := ready_ifvp (w0 := []) (st := { st with pre := p })
        ⟨h2.layout, h2.grads, h2.known⟩ hne h5 h6
        (by change Holds st.ifvp []; rw [h4]; exact holds_nil) (Nat.zero_le _) .efim
      simp only at g3
      obtain ⟨M', k1, k2⟩ := attr_ready g3 .efim D test ht hd0
      have hatt : attribute' .efim damping (St.new K d none) D test = (s3, .ok M') := by
        unfold attribute'
        rw [hnc, if_neg (by simp)]
        unfold cache
        rw [h1]
        simp only [hcp, g1]
        exact k1
      rw [hM, hatt]
      exact hS.unique k2

/-- A run that stores the preconditioned gradients of the single batch 0 and finalises. -/
def ifvpActs {R : Type} (rows : List R) : List (Disk.Act R) :=
  [.callStart 0 1, .callStore .ifvp 0 rows, .prod, .prod, .prod, .take, .work 0, .work 0, .work 0,
    .callFinalize, .prod]

/-- **C131** (reachable).  A loader with one non-empty batch: there are schedules that meet all conditions of
`C131_same_scores`, whatever rows are stored as preconditioned gradients. -/
theorem C131_reachable {R : Type} (hc : 0 < cfg.chunkSize) (hq : 0 < cfg.queueCap) (hw : 0 < cfg.workers)
    (rows rows' : List R) (h1 : rows ≠ []) (h2 : rows' ≠ []) (h3 : rows.length ≤ cfg.maxRows)
    (h4 : rows'.length ≤ cfg.maxRows) :
    ∃ acts1 acts2 s1 s1' s2 s2',
      Disk.exec cfg (Disk.St.init (fun _ => none) (fun _ => none)) acts1 = some s1 ∧
      Disk.Disciplined s1.ev ∧ Disk.OneRound s1.ev ∧ Disk.Returns cfg s1 s1' ∧
      (Disk.storedOf .gradients s1.ev).Perm (indexed [rows]) ∧
      Disk.exec cfg s1' acts2 = some s2 ∧ Disk.Disciplined s2.ev ∧ Disk.OneRound s2.ev ∧
      Disk.Returns cfg s2 s2' ∧ (Disk.storedOf .ifvp s2.ev).Perm (indexed [rows']) := by
  have hm : min cfg.chunkSize 1 = 1 := Nat.min_eq_right hc
  have n1 : ¬ cfg.maxRows < rows.length := by omega
  have n2 : ¬ cfg.maxRows < rows'.length := by omega
  have n3 : ¬ cfg.chunkSize = 0 := by omega
  let p : Disk.Path := ⟨.gradients, 0, 0⟩
  let q : Disk.Path := ⟨.ifvp, 0, 0⟩
  refine ⟨Disk.rerunActs rows, ifvpActs rows',
    { buffers := [], pending := [], queue := [], busy := [], dataFile := Disk.put (fun _ => none) p rows,
      metaFile := Disk.put (fun _ => none) p [⟨0, 0, rows.length⟩], range := some (0, 1), pc := .wait,
      ev := [.flushed (.gradients, 0), .stored (.gradients, 0) 0 rows, .started 0 1] },
    { buffers := [], pending := [], queue := [], busy := [], dataFile := Disk.put (fun _ => none) p rows,
      metaFile := Disk.put (fun _ => none) p [⟨0, 0, rows.length⟩], range := none, pc := .idle,
      ev := [.finalized, .flushed (.gradients, 0), .stored (.gradients, 0) 0 rows, .started 0 1] },
    { buffers := [], pending := [], queue := [], busy := [],
      dataFile := Disk.put (Disk.put (fun _ => none) p rows) q rows',
      metaFile := Disk.put (Disk.put (fun _ => none) p [⟨0, 0, rows.length⟩]) q [⟨0, 0, rows'.length⟩],
      range := some (0, 1), pc := .wait,
      ev := [.flushed (.ifvp, 0), .stored (.ifvp, 0) 0 rows', .started 0 1, .finalized,
        .flushed (.gradients, 0), .stored (.gradients, 0) 0 rows, .started 0 1] },
    { buffers := [], pending := [], queue := [], busy := [],
      dataFile := Disk.put (Disk.put (fun _ => none) p rows) q rows',
      metaFile := Disk.put (Disk.put (fun _ => none) p [⟨0, 0, rows.length⟩]) q [⟨0, 0, rows'.length⟩],
      range := none, pc := .idle,
      ev := [.finalized, .flushed (.ifvp, 0), .stored (.ifvp, 0) 0 rows', .started 0 1, .finalized,
        .flushed (.gradients, 0), .stored (.gradients, 0) 0 rows, .started 0 1] },
    ?_, ?_, ?_, ?_, ?_, ?_, ?_, ?_, ?_, ?_⟩
  · simp [Disk.exec, Disk.rerunActs, Disk.St.init, Disk.step, Disk.startRange, Disk.store, Disk.storeIn,
      Disk.openBuffer, Disk.append, Disk.beginFlush, Disk.isComplete, Disk.prodStep, Disk.takeStep,
      Disk.workStep, Disk.setBusy, Disk.finalize, Disk.chunkId, hm, PyDict.get?, PyDict.set, PyDict.erase,
      PyDict.keys, h1, n1, n3, hq, hw, Disk.pathOf, p]
  · simp [Disk.Disciplined, Disk.epochRange, Disk.epoch]
  · simp [Disk.OneRound, Disk.past]
  · exact ⟨by simp [Disk.step, Disk.prodStep], rfl⟩
  · simp [Disk.storedOf, indexed]
  · simp [Disk.exec, ifvpActs, Disk.step, Disk.startRange, Disk.store, Disk.storeIn,
      Disk.openBuffer, Disk.append, Disk.beginFlush, Disk.isComplete, Disk.prodStep, Disk.takeStep,
      Disk.workStep, Disk.setBusy, Disk.finalize, Disk.chunkId, hm, PyDict.get?, PyDict.set, PyDict.erase,
      PyDict.keys, h2, n2, n3, hq, hw, Disk.pathOf, q]
  · simp [Disk.Disciplined, Disk.epochRange, Disk.epoch]
  · simp [Disk.OneRound, Disk.past]
  · exact ⟨by simp [Disk.step, Disk.prodStep], rfl⟩
  · simp [Disk.storedOf, indexed]

/-- The conditions on the loaders are met: one layer of dimension 1, one batch with the sample 3. -/
example : (Data.of (K := ℚ) (d := fun _ : Fin 1 => 1) 1 false [fun _ _ => 3]).WF ∧
    (Data.of (K := ℚ) (d := fun _ : Fin 1 => 1) 1 false [fun _ _ => 3]).batches = [[fun _ _ => 3]] ∧
    ∑ l : Fin 1, (fun _ : Fin 1 => 1) l ≠ 0 :=
  ⟨of_wf (by decide) _ _, rfl, by decide⟩

end Verif.BlockIF
