import Verif.BlockIF.ScoreLemmas
import Verif.BlockIF.IFProps

/-!
# Attributors sharing a directory: recorded sizes and stored batches (helper lemmas for C162)
-/

namespace Verif.BlockIF

open Verif

variable {K : Type} [Field K] [DecidableEq K] {L : ℕ} {d : Fin L → ℕ}

/-- Specification: the batch sizes a directory describes after a loader with batch sizes `new` has
been cached where sizes `old` were described before. -/
def recorded (old new : List ℕ) : List ℕ :=
  if new.length = old.length then old else new ++ old.drop new.length

/-- Specification: the histories of a directory.  It starts without metadata; then any number of
attributors are created one after the other, each caches a loader. -/
inductive Dir : Option File → List ℕ → Prop
  | empty : Dir none []
  | cached {f : Option File} {S : List ℕ} {K : Type} [Field K] [DecidableEq K] {L : ℕ}
      {d : Fin L → ℕ} (h : Hessian) (damping : Option K) (D : Data K d) :
      Dir f S → D.WF → D.batches ≠ [] →
      Dir (cache h damping (St.new K d f) D).1.md.file (recorded S (D.batches.map List.length))

/-- Specification: the rows shown for a batch of which `s` rows are recorded. -/
def fitted {R : Type} [Zero R] (s : ℕ) (b : List R) : List R :=
  if b.length = s then b else List.replicate s (b.headD 0)

/-- Specification: the rows of the score matrix, batch by batch: recorded batches without stored
gradients show zeros. -/
def fit {R : Type} [Zero R] : List ℕ → List (List R) → List (List R)
  | [], _ => []
  | s :: ss, [] => List.replicate s 0 :: fit ss []
  | s :: ss, b :: w => fitted s b :: fit ss w

/-- Specification: every batch has its recorded size or a single row. -/
def FitsSizes {R : Type} (T : List ℕ) (w : List (List R)) : Prop :=
  ∀ (k : ℕ) (b : List R) (s : ℕ), w[k]? = some b → T[k]? = some s → b.length = s ∨ b.length = 1

theorem length_fitted {R : Type} [Zero R] (s : ℕ) (b : List R) : (fitted s b).length = s := by
  unfold fitted
  split_ifs with h
  · exact h
  · simp

theorem fit_lengths {R : Type} [Zero R] (T : List ℕ) (w : List (List R)) :
    (fit T w).map List.length = T := by
  induction T generalizing w with
  | nil => rfl
  | cons s T ih =>
    rcases w with _ | ⟨b, w⟩
    · simp [fit, ih]
    · simp [fit, ih, length_fitted]

/-- What `fit` has at position `k`. -/
def fitAt {R : Type} [Zero R] (s : ℕ) : Option (List R) → List R
  | none => List.replicate s 0
  | some b => fitted s b

theorem fit_get {R : Type} [Zero R] (T : List ℕ) (w : List (List R)) (k : ℕ) :
    (fit T w)[k]? = T[k]?.map fun s => fitAt s w[k]? := by
  induction T generalizing w k with
  | nil => simp [fit]
  | cons s T ih =>
    rcases w with _ | ⟨b, w⟩
    · rcases k with _ | k
      · simp [fit, fitAt]
      · simp only [fit, List.getElem?_cons_succ]
        rw [ih]
        simp
    · rcases k with _ | k
      · simp [fit, fitAt]
      · simp only [fit, List.getElem?_cons_succ]
        rw [ih]

theorem layout_congr {R R' : Type} {bl : List (List R)} {bl' : List (List R')}
    (h : bl.map List.length = bl'.map List.length) {m : Meta} (hl : Layout bl m) : Layout bl' m := by
  have hlen : bl.length = bl'.length := by simpa using congrArg List.length h
  refine ⟨by rw [hl.keys, hlen], ?_, ?_, hl.pending⟩
  · intro k b hb
    have h1 : ((bl'.map List.length)[k]? : Option ℕ) = some b.length := by
      rw [List.getElem?_map, hb]; rfl
    rw [← h, List.getElem?_map] at h1
    rcases hk : bl[k]? with _ | b0
    · rw [hk] at h1; cases h1
    · rw [hk] at h1
      have h2 : b0.length = b.length := by simpa using h1
      rw [hl.get k b0 hk, h2]
      simp only [List.length_flatten, List.map_take, h]
  · rw [hl.total, List.length_flatten, List.length_flatten, h]

/-- The metadata describes batches of the given sizes. -/
def Sized (T : List ℕ) (m : Meta) : Prop := Layout (T.map fun s => List.replicate s ()) m

theorem sized_layout {R : Type} {T : List ℕ} {bl : List (List R)} (h : bl.map List.length = T)
    {m : Meta} : Sized T m ↔ Layout bl m := by
  have e : (T.map fun s => List.replicate s ()).map List.length = bl.map List.length := by
    rw [h, List.map_map]
    conv_rhs => rw [← List.map_id T]
    apply List.map_congr_left
    intro s _
    simp
  exact ⟨layout_congr e, layout_congr e.symm⟩

omit [Field K] [DecidableEq K] in
theorem sized_initialize {T : List ℕ} {m : Meta} (h : Sized T m) {D : Data K d} (hD : D.WF)
    [Zero K] : Sized (recorded T (D.batches.map List.length)) (m.initialize D.spec) := by
  have hlay : Layout (T.map fun s => List.replicate s (0 : Row K d)) m :=
    (sized_layout (by
      rw [List.map_map]
      conv_rhs => rw [← List.map_id T]
      apply List.map_congr_left
      intro s _
      simp)).1 h
  have hl : m.info.length = T.length := by simpa using layout_length hlay
  unfold recorded
  rw [List.length_map]
  split_ifs with he
  · rw [C58_kept _ _ (by rw [hl, ← he, hD.length])]
    exact h
  · refine (sized_layout ?_).2 (layout_initialize hlay hD (fun hc => absurd (by simpa using hc) he))
    rw [List.map_append, List.map_drop, List.map_map]
    congr 2
    conv_rhs => rw [← List.map_id T]
    apply List.map_congr_left
    intro s _
    simp

/-- The attributor's own batches are stored; the metadata describes the sizes `T`. -/
structure Kept (T : List ℕ) (bl : List (List (Row K d))) (st : St K d) : Prop where
  sized : Sized T st.md
  grads : Holds st.grads bl
  known : st.known = true
  comp : st.comp = true
  cached : st.cached = true
  ne : bl ≠ []
  le : bl.length ≤ T.length

omit [Field K] [DecidableEq K] in
theorem Kept.sync {T : List ℕ} {bl : List (List (Row K d))} {st : St K d} (h : Kept T bl st) :
    st.sync = st := by
  refine sync_eq h.sized ?_ h.known
  intro hc
  have h1 : T = [] := by simpa using hc
  have h2 := h.le
  rw [h1] at h2
  exact h.ne (List.length_eq_zero_iff.1 (Nat.le_zero.1 h2))

theorem recorded_le (S : List ℕ) (N : List ℕ) : N.length ≤ (recorded S N).length := by
  unfold recorded
  split_ifs with h
  · exact h.le
  · simp

omit [DecidableEq K] in
/-- Caching in a directory that describes sizes `S`. -/
theorem kept_cache {f : Option File} {S : List ℕ} (hS : Sized S (Meta.new f)) {D : Data K d}
    (hD : D.WF) (hne : D.batches ≠ []) :
    ∃ st, cacheGrads (St.new K d f) D = (st, .ok ()) ∧
      Kept (recorded S (D.batches.map List.length)) D.batches st ∧
      Sized (recorded S (D.batches.map List.length)) (Meta.new st.md.file) ∧
      st.grads = D.batches.zipIdx.foldl (fun g p => PyDict.set p.2 p.1 g) [] ∧
      st.pre = (fun _ => none) ∧ st.ifvp = [] := by
  set T := recorded S (D.batches.map List.length) with hT
  have hlay : Sized T ((Meta.new f).initialize D.spec) := sized_initialize hS hD
  have hle : D.batches.length ≤ T.length := by
    have := recorded_le S (D.batches.map List.length)
    rwa [List.length_map] at this
  have hTne : (T.map fun s => List.replicate s ()) ≠ [] := by
    intro hc
    have h1 : T = [] := by simpa using hc
    rw [h1] at hle
    exact hne (List.length_eq_zero_iff.1 (Nat.le_zero.1 hle))
  set st1 : St K d := { St.new K d f with
    cached := true, comp := true, md := (Meta.new f).initialize D.spec } with hst1
  obtain ⟨h1, h2, h3, h4, h5, -, h7⟩ := cacheLoop D.batches.zipIdx st1
  have hmd : (D.batches.zipIdx.foldl cacheBatch st1).known = true ∧
      Sized T (D.batches.zipIdx.foldl cacheBatch st1).md := by
    rcases hb : D.batches with _ | ⟨x, xs⟩
    · exact absurd hb hne
    · obtain ⟨h8, h9⟩ := h7 (x, 0) (xs.zipIdx 1) rfl (by rw [hb, List.zipIdx_cons])
      rw [hb] at h8 h9
      refine ⟨h8, ?_⟩
      rw [h9]
      change Sized T ((((Meta.new f).initialize D.spec).addBatchInfo 0 _).setDims _)
      rw [layout_add hlay hTne]
      exact layout_dims hlay _
  have hres : Sized T (D.batches.zipIdx.foldl cacheBatch st1).md.save := layout_resave hmd.2
  refine ⟨{ D.batches.zipIdx.foldl cacheBatch st1 with
    md := (D.batches.zipIdx.foldl cacheBatch st1).md.save }, ?_,
    ⟨hres, ⟨?_, ?_⟩, hmd.1, h5, h4, hne, hle⟩, ?_, h1, h2, h3⟩
  · unfold cacheGrads
    simp only
    rw [if_neg (fun h => hne h.2)]
    rfl
  · simp only
    rw [h1]
    exact setLoop_nodup _ _ (by simp [hst1, St.new, PyDict.keys])
  · intro k
    simp only
    rw [h1, setLoop_get]
    by_cases hk : k < D.batches.length
    · rw [if_pos ⟨by omega, by omega⟩]
      rfl
    · rw [if_neg (by omega), List.getElem?_eq_none (by omega)]
      rfl
  · exact ⟨hres.keys, hres.get, hres.total, rfl⟩

/-- The metadata does not change after the gradients are stored. -/
theorem cache_md {T : List ℕ} {bl : List (List (Row K d))} {st s1 : St K d} {D : Data K d}
    (hk : Kept T bl s1) (h1 : cacheGrads st D = (s1, .ok ())) (h : Hessian) (damping : Option K) :
    (cache h damping st D).1.md = s1.md := by
  unfold cache
  rw [h1]
  simp only
  cases h with
  | identity => rfl
  | efim =>
    simp only
    have hp : computePre damping s1 =
        ({ s1 with pre := (preLoop damping (chunks 4 s1.grads) (List.finRange L) s1.pre).1 },
          (preLoop damping (chunks 4 s1.grads) (List.finRange L) s1.pre).2) := by
      unfold computePre
      simp only [hk.sync]
      rw [if_neg (by rw [hk.known]; simp)]
    rw [hp]
    rcases (preLoop damping (chunks 4 s1.grads) (List.finRange L) s1.pre).2 with e | u
    · rfl
    · simp only
      have hk2 : Kept T bl
          { s1 with pre := (preLoop damping (chunks 4 s1.grads) (List.finRange L) s1.pre).1 } :=
        ⟨hk.sized, hk.grads, hk.known, hk.comp, hk.cached, hk.ne, hk.le⟩
      unfold computeIfvp
      simp only [hk2.sync]
      rw [if_neg (by rw [hk.known]; simp)]

/-- What a directory describes after any history. -/
theorem dir_sized {f : Option File} {S : List ℕ} (h : Dir f S) : Sized S (Meta.new f) := by
  induction h with
  | empty => exact ⟨rfl, fun k b h => by simp at h, rfl, rfl⟩
  | cached h damping D _ hD hne ih =>
    obtain ⟨st, h1, h2, h3, -⟩ := kept_cache ih hD hne
    rw [cache_md h2 h1]
    exact h3

/-! ### Scores -/

/-- The preconditioned gradients `w` are stored; the metadata describes the sizes `T`. -/
structure KeptReady (T : List ℕ) (w : List (List (Row K d))) (st : St K d) : Prop where
  sized : Sized T st.md
  ifvp : Holds st.ifvp w
  ne : w ≠ []
  le : w.length ≤ T.length
  known : st.known = true
  comp : st.comp = true
  cached : st.cached = true

omit [DecidableEq K] in
theorem kept_attr {T : List ℕ} {w : List (List (Row K d))} {st : St K d} (hr : KeptReady T w st)
    (h : Hessian) (train test : Data K d) (ht : test.batches.flatten ≠ []) (hd : ∑ l, d l ≠ 0) :
    attributeCached h st train test =
      (st, scoreLoop st.md.mapping (chunks 2 st.ifvp) test.batches.flatten
        (Mat.zeros st.md.totalSamples.toNat test.batches.flatten.length)) := by
  have hsync : st.sync = st := by
    refine sync_eq hr.sized ?_ hr.known
    intro hc
    have h1 : T = [] := by simpa using hc
    have h2 := hr.le
    rw [h1] at h2
    exact hr.ne (List.length_eq_zero_iff.1 (Nat.le_zero.1 h2))
  have hif : st.ifvp ≠ [] := by
    intro hc
    rcases w with _ | ⟨b, w⟩
    · exact hr.ne rfl
    · have := hr.ifvp.get 0
      rw [hc] at this
      cases this
  unfold attributeCached
  simp only [hsync]
  rw [if_neg (by rw [hr.comp]; simp)]
  have hst : ({ st with comp := true } : St K d) = st := by
    have := hr.comp
    cases st
    simp only at this
    rw [this]
  rw [hst, if_pos hif]
  simp only
  rw [if_neg (by simp [ht, hd])]

omit [DecidableEq K] in
theorem kept_error {T : List ℕ} {w : List (List (Row K d))} {st : St K d} (hr : KeptReady T w st)
    (h : Hessian) (train test : Data K d) (ht : test.batches.flatten ≠ []) (hd : ∑ l, d l ≠ 0)
    (hf : ¬ FitsSizes T w) : (attributeCached h st train test).2 = .error .runtimeError := by
  rw [kept_attr hr h train test ht hd]
  unfold FitsSizes at hf
  push Not at hf
  obtain ⟨k, b, s, hb, hs, h1, h2⟩ := hf
  have hm := layout_mapping hr.sized k
  rw [List.getElem?_map, hs] at hm
  refine scoreLoop_error (by decide) hr.ifvp.nodup ht _ (by rw [hr.ifvp.get k, hb]) hm ?_
  simp [bcast, h1, h2]

omit [DecidableEq K] in
theorem kept_scores {T : List ℕ} {w : List (List (Row K d))} {st : St K d} (hr : KeptReady T w st)
    (h : Hessian) (train test : Data K d) (ht : test.batches.flatten ≠ []) (hd : ∑ l, d l ≠ 0)
    (hf : FitsSizes T w) : ∃ M, (attributeCached h st train test).2 = .ok M ∧
      Scores M (fit T w).flatten test.batches.flatten := by
  rw [kept_attr hr h train test ht hd]
  have hlay : Layout (fit T w) st.md := (sized_layout (fit_lengths T w)).1 hr.sized
  have hT : ∀ k s : ℕ, T[k]? = some s → (fit T w)[k]? = some (fitAt s w[k]?) := by
    intro k s hs
    rw [fit_get, hs]
    rfl
  have hsize : ∀ k rows, PyDict.get? st.ifvp k = some rows → ∃ s, w[k]? = some rows ∧ T[k]? = some s := by
    intro k rows hk
    rw [hr.ifvp.get k] at hk
    have := (List.getElem?_eq_some_iff.1 hk).1
    have hle := hr.le
    exact ⟨T[k]'(by omega), hk, List.getElem?_eq_getElem _⟩
  have hlen : ∀ k rows r, PyDict.get? st.ifvp k = some rows → PyDict.get? st.md.mapping k = some r →
      bcast rows.length (r.2 - r.1).toNat = true := by
    intro k rows r h1 h2
    obtain ⟨s, hw, hs⟩ := hsize k rows h1
    rw [layout_mapping hlay, hT k s hs, hw] at h2
    cases h2
    have := hf k rows s hw hs
    simp only [fitAt, length_fitted, bcast]
    simpa using this
  obtain ⟨M, h1, h2, h3, h4, h5⟩ := scoreLoop_bcast (g := 2) (by decide) hr.ifvp.nodup
    (layout_disjoint hlay) hlen test.batches.flatten
    (Mat.zeros st.md.totalSamples.toNat test.batches.flatten.length)
  refine ⟨M, h1, ?_, by rw [h3]; rfl, ?_⟩
  · rw [h2]
    change st.md.totalSamples.toNat = _
    unfold Meta.totalSamples
    rw [hlay.total]
    rfl
  · intro i j a b hi hj
    obtain ⟨k, rows, o, hk, ho, hio⟩ := flatten_locate _ _ _ hi
    have hk2 := layout_mapping hlay k
    rw [hk] at hk2
    have ho' := (List.getElem?_eq_some_iff.1 ho).1
    have hj' := (List.getElem?_eq_some_iff.1 hj).1
    have hTk : ∃ s, T[k]? = some s := by
      rw [fit_get] at hk
      rcases hs : T[k]? with _ | s
      · rw [hs] at hk; cases hk
      · exact ⟨s, rfl⟩
    obtain ⟨s, hs⟩ := hTk
    have hrows : rows = fitAt s w[k]? := by
      rw [hT k s hs] at hk
      exact (Option.some.inj hk).symm
    have e1 : ((i : ℤ) - (((fit T w).take k).flatten.length : ℤ)).toNat = o := by omega
    rcases hw : w[k]? with _ | b0
    · rw [hw] at hrows
      have ha : a = 0 := by
        have := List.mem_of_getElem? ho
        rw [hrows] at this
        exact List.eq_of_mem_replicate this
      rw [h5 i j, ha]
      · simp [Mat.zeros]
      · intro k' rows' r' hk' hr' hc
        have := layout_disjoint hlay k k' _ r' hk2 hr' i (by simp only; omega) (by simp only; omega)
          hc.1 hc.2
        rw [← this, hr.ifvp.get k, hw] at hk'
        cases hk'
    · rw [hw] at hrows
      rw [h4 k b0 _ (by rw [hr.ifvp.get k, hw]) hk2 i j (by simp only; omega) (by simp only; omega)
        hj']
      simp only [e1]
      have hval : b0.getD (if b0.length = 1 then 0 else o) 0 = a := by
        rw [hrows] at ho ho'
        simp only [fitAt, length_fitted] at ho'
        simp only [fitAt, fitted] at ho
        split_ifs at ho with hl
        · have : (if b0.length = 1 then 0 else o) = o := by
            split_ifs with h1
            · omega
            · rfl
          rw [this, List.getD_eq_getElem?_getD, ho]
          rfl
        · have h1 : b0.length = 1 := (hf k b0 s hw hs).resolve_left hl
          rw [if_pos h1]
          have ha := List.eq_of_mem_replicate (List.mem_of_getElem? ho)
          rw [ha]
          rcases b0 with _ | ⟨x, xs⟩
          · simp at h1
          · rfl
      rw [hval, List.getD_eq_getElem?_getD, hj]
      rfl

omit [DecidableEq K] in
/-- Storing the preconditioned gradients. -/
theorem kept_ifvp {T : List ℕ} {bl : List (List (Row K d))} {st : St K d} (hk : Kept T bl st)
    (hw : st.ifvp = []) (h : Hessian) :
    ∃ st', computeIfvp h st = (st', .ok ()) ∧
      KeptReady T (bl.map (List.map (match h with | .identity => id | .efim => applyPre st.pre))) st' := by
  set f : Row K d → Row K d := match h with | .identity => id | .efim => applyPre st.pre with hf
  have hkeys : ∀ k, k ∈ PyDict.keys st.md.mapping ↔ k < T.length := by
    intro k
    rw [mapping_keys, flush_of_empty hk.sized.pending, hk.sized.keys, List.mem_range,
      List.length_map]
  have hle := hk.le
  have key : ∀ g, 0 < g → Holds (storeIfvp (PyDict.keys st.md.mapping) f (chunks g st.grads) st.ifvp)
      (bl.map (List.map f)) := by
    intro g hg
    rw [storeIfvp_chunks _ _ _ hg, hw]
    refine ⟨storeFold_nodup _ _ _ _ (by simp [PyDict.keys]), ?_⟩
    intro k
    rw [storeFold_get _ _ _ (sortedItems_nodup hk.grads.nodup), sortedItems_get hk.grads.nodup,
      hk.grads.get k, List.getElem?_map]
    by_cases hkl : k < bl.length
    · rw [if_pos ((hkeys k).2 (by omega)), List.getElem?_eq_getElem hkl]
      rfl
    · rw [List.getElem?_eq_none (by omega)]
      split_ifs <;> rfl
  have hne' : bl.map (List.map f) ≠ [] := by simpa using hk.ne
  unfold computeIfvp
  simp only [hk.sync]
  rw [if_neg (by rw [hk.known]; simp)]
  cases h with
  | identity =>
    exact ⟨_, rfl, hk.sized, key 1 (by decide), hne', by simpa using hle, hk.known, hk.comp, hk.cached⟩
  | efim =>
    exact ⟨_, rfl, hk.sized, key 4 (by decide), hne', by simpa using hle, hk.known, hk.comp, hk.cached⟩

/-- A successful `cache` under the empirical Fisher matrix. -/
theorem kept_efim {T : List ℕ} {bl : List (List (Row K d))} {st s1 st' : St K d} {D : Data K d}
    (hk : Kept T bl s1) (hw : s1.ifvp = []) (h1 : cacheGrads st D = (s1, .ok ()))
    (damping : Option K) (hok : cache .efim damping st D = (st', .ok ())) :
    KeptReady T (bl.map (List.map
      (preconditioned .efim (damping.getD (1 / 100000)) bl.flatten))) st' := by
  unfold cache at hok
  rw [h1] at hok
  simp only at hok
  rcases hp : computePre damping s1 with ⟨s2, e | u⟩
  · rw [hp] at hok
    simp at hok
  · rw [hp] at hok
    simp only at hok
    unfold computePre at hp
    simp only [hk.sync] at hp
    rw [if_neg (by rw [hk.known]; simp)] at hp
    have hs2 := (Prod.ext_iff.1 hp).1
    have hok2 := (Prod.ext_iff.1 hp).2
    simp only at hs2 hok2
    have hperm := holds_flatten hk.grads
    obtain ⟨-, -, hP⟩ := C56_value damping (g := 4) (by decide) hk.grads.nodup s1.pre
    have hP := hP hok2
    have hS2 : Kept T bl s2 := by
      rw [← hs2]
      exact ⟨hk.sized, hk.grads, hk.known, hk.comp, hk.cached, hk.ne, hk.le⟩
    obtain ⟨s3, g1, g3⟩ := kept_ifvp hS2 (by rw [← hs2]; exact hw) .efim
    rw [g1] at hok
    have : s3 = st' := (Prod.ext_iff.1 hok).1
    subst this
    simp only at g3
    have e : bl.map (List.map (applyPre s2.pre)) = bl.map (List.map
        (preconditioned .efim (damping.getD (1 / 100000)) bl.flatten)) := by
      apply List.map_congr_left
      intro b hb
      apply List.map_congr_left
      intro r hr
      funext l
      by_cases hdl : d l = 0
      · funext i
        exact absurd i.2 (by omega)
      · have hmem : r ∈ bl.flatten := List.mem_flatten.2 ⟨b, hb, hr⟩
        have hmem' : r ∈ s1.grads.flatMap Prod.snd := hperm.mem_iff.2 hmem
        obtain ⟨P, hP1, hP2⟩ := hP l ⟨hdl, List.ne_nil_of_mem hmem'⟩
        rw [damped_perm _ _ hperm] at hP2
        have hP3 : P = (damped (damping.getD (1 / 100000)) l bl.flatten)⁻¹ :=
          (Matrix.inv_eq_left_inv hP2).symm
        unfold applyPre applyLayer preconditioned
        rw [← hs2]
        simp only [hP1, hP3]
    rw [e] at g3
    exact g3

end Verif.BlockIF
