import Verif.BlockIF.CacheLemmas
import Verif.BlockIF.PreProps

/-!
# Block-projected influence functions: scores and re-caching (C60, C61, C91, C92)

A sample is given by its compressed gradient (one vector per layer).  The specification of a score is
the plain sum of inner products of the preconditioned training gradient with the test gradient.
-/

namespace Verif.BlockIF

open Verif

variable {K : Type} [Field K] [DecidableEq K] {L : ℕ} {d : Fin L → ℕ}

/-- The preconditioned gradient of a sample, given all samples. -/
noncomputable def preconditioned (h : Hessian) (δ : K) (samples : List (Row K d)) (g : Row K d) :
    Row K d :=
  match h with
  | .identity => g
  | .efim => fun l => ((damped δ l samples)⁻¹).mulVec (g l)

/-- `M` is the matrix of inner products of `rows` and `test`. -/
structure Scores (M : Mat K) (rows test : List (Row K d)) : Prop where
  r : M.r = rows.length
  c : M.c = test.length
  f : ∀ i j a b, rows[i]? = some a → test[j]? = some b → M.f i j = ∑ l, ∑ k, a l k * b l k

/-! ### Helper lemmas -/

theorem flatten_locate {R : Type} (w : List (List R)) (i : ℕ) (r : R)
    (h : w.flatten[i]? = some r) :
    ∃ k b o, w[k]? = some b ∧ b[o]? = some r ∧ i = (w.take k).flatten.length + o := by
  induction w generalizing i with
  | nil => simp at h
  | cons b w ih =>
    rw [List.flatten_cons] at h
    by_cases hi : i < b.length
    · rw [List.getElem?_append_left hi] at h
      exact ⟨0, b, i, rfl, h, by simp⟩
    · rw [List.getElem?_append_right (by omega)] at h
      obtain ⟨k, b', o, h1, h2, h3⟩ := ih _ h
      refine ⟨k + 1, b', o, by simpa using h1, h2, ?_⟩
      rw [List.take_succ_cons, List.flatten_cons, List.length_append]
      omega

/-- The preconditioned gradients `w` are stored, with matching metadata. -/
structure Ready (w : List (List (Row K d))) (st : St K d) : Prop where
  layout : Layout w st.md
  ifvp : Holds st.ifvp w
  ne : w ≠ []
  known : st.known = true
  comp : st.comp = true
  cached : st.cached = true

omit [Field K] [DecidableEq K] in
theorem Ready.ifvp_ne {w : List (List (Row K d))} {st : St K d} (h : Ready w st) : st.ifvp ≠ [] := by
  intro hc
  rcases w with _ | ⟨b, w⟩
  · exact h.ne rfl
  · have := h.ifvp.get 0
    rw [hc] at this
    cases this

omit [DecidableEq K] in
theorem attr_state {w : List (List (Row K d))} {st : St K d} (hr : Ready w st) (h : Hessian)
    (train test : Data K d) : (attributeCached h st train test).1 = st := by
  unfold attributeCached
  simp only [sync_eq hr.layout hr.ne hr.known]
  rw [if_neg (by rw [hr.comp]; simp)]
  have hst : ({ st with comp := true } : St K d) = st := by
    have := hr.comp
    cases st
    simp only at this
    rw [this]
  rw [hst, if_pos hr.ifvp_ne]
  simp only
  split_ifs <;> rfl

omit [DecidableEq K] in
/-- Scores of a ready state. -/
theorem attr_ready {w : List (List (Row K d))} {st : St K d} (hr : Ready w st) (h : Hessian)
    (train test : Data K d) (ht : test.batches.flatten ≠ []) (hd : ∑ l, d l ≠ 0) :
    ∃ M, attributeCached h st train test = (st, .ok M) ∧ Scores M w.flatten test.batches.flatten := by
  have hlen : ∀ k rows r, PyDict.get? st.ifvp k = some rows → PyDict.get? st.md.mapping k = some r →
      rows.length = (r.2 - r.1).toNat := by
    intro k rows r h1 h2
    rw [hr.ifvp.get k] at h1
    rw [layout_mapping hr.layout, h1] at h2
    cases h2
    simp
  obtain ⟨M, h1, h2, h3, h4, h5⟩ := scoreLoop_spec (g := 2) (by decide) hr.ifvp.nodup
    (layout_disjoint hr.layout) hlen test.batches.flatten
    (Mat.zeros st.md.totalSamples.toNat test.batches.flatten.length)
  refine ⟨M, ?_, ?_, ?_, ?_⟩
  · refine Prod.ext (attr_state hr h train test) ?_
    unfold attributeCached
    simp only [sync_eq hr.layout hr.ne hr.known]
    rw [if_neg (by rw [hr.comp]; simp)]
    have hst : ({ st with comp := true } : St K d) = st := by
      have := hr.comp
      cases st
      simp only at this
      rw [this]
    rw [hst, if_pos hr.ifvp_ne]
    simp only
    rw [if_neg (by simp [ht, hd])]
    exact h1
  · rw [h2]
    change st.md.totalSamples.toNat = _
    unfold Meta.totalSamples
    rw [hr.layout.total]
    rfl
  · rw [h3]; rfl
  · intro i j a b hi hj
    obtain ⟨k, rows, o, hk, ho, hio⟩ := flatten_locate _ _ _ hi
    have hk1 : PyDict.get? st.ifvp k = some rows := by rw [hr.ifvp.get k, hk]
    have hk2 := layout_mapping hr.layout k
    rw [hk] at hk2
    have ho' := (List.getElem?_eq_some_iff.1 ho).1
    have hj' := (List.getElem?_eq_some_iff.1 hj).1
    rw [h4 k rows _ hk1 hk2 i j (by simp only; omega) (by simp only; omega) hj']
    have e1 : ((i : ℤ) - ((w.take k).flatten.length : ℤ)).toNat = o := by omega
    simp only [e1]
    rw [List.getD_eq_getElem?_getD, List.getD_eq_getElem?_getD, ho, hj]
    rfl

omit [DecidableEq K] in
/-- Storing the preconditioned gradients of all batches. -/
theorem ready_ifvp {bl w0 : List (List (Row K d))} {st : St K d} (hs : Stored bl st) (hne : bl ≠ [])
    (hc : st.comp = true) (hc' : st.cached = true) (hw : Holds st.ifvp w0)
    (hlen : w0.length ≤ bl.length) (h : Hessian) :
    ∃ st', computeIfvp h st = (st', .ok ()) ∧ Stored bl st' ∧
      Ready (bl.map (List.map (match h with | .identity => id | .efim => applyPre st.pre))) st' ∧
      st'.pre = st.pre := by
  set f : Row K d → Row K d := match h with | .identity => id | .efim => applyPre st.pre with hf
  have hsync := sync_eq hs.layout hne (hs.known hne)
  have hkeys : ∀ k, k ∈ PyDict.keys st.md.mapping ↔ k < bl.length := by
    intro k
    rw [mapping_keys, flush_of_empty hs.layout.pending, hs.layout.keys, List.mem_range]
  have key : ∀ g, 0 < g → Holds (storeIfvp (PyDict.keys st.md.mapping) f (chunks g st.grads) st.ifvp)
      (bl.map (List.map f)) := by
    intro g hg
    rw [storeIfvp_chunks _ _ _ hg]
    refine ⟨storeFold_nodup _ _ _ _ hw.nodup, ?_⟩
    intro k
    rw [storeFold_get _ _ _ (sortedItems_nodup hs.grads.nodup), sortedItems_get hs.grads.nodup,
      hs.grads.get k, List.getElem?_map]
    by_cases hk : k < bl.length
    · rw [if_pos ((hkeys k).2 hk), List.getElem?_eq_getElem hk]
      rfl
    · rw [if_neg (fun hc => hk ((hkeys k).1 hc)), hw.get k, List.getElem?_eq_none (by omega),
        List.getElem?_eq_none (by omega)]
      rfl
  have hlay : Layout (bl.map (List.map f)) st.md := by
    have e : (bl.map (List.map f)).map List.length = bl.map List.length := by
      rw [List.map_map]
      apply List.map_congr_left
      intro b _
      simp
    refine ⟨by rw [hs.layout.keys, List.length_map], ?_, ?_, hs.layout.pending⟩
    · intro k b hb
      rw [List.getElem?_map] at hb
      rcases hbk : bl[k]? with _ | b0
      · rw [hbk] at hb; cases hb
      · rw [hbk] at hb
        cases hb
        rw [hs.layout.get k b0 hbk]
        simp only [List.length_flatten, List.map_take, e, List.length_map]
    · rw [hs.layout.total, List.length_flatten, List.length_flatten, e]
  have hne' : bl.map (List.map f) ≠ [] := by simpa using hne
  unfold computeIfvp
  simp only [hsync]
  rw [if_neg (by rw [hs.known hne]; simp)]
  cases h with
  | identity =>
    exact ⟨_, rfl, ⟨hs.layout, hs.grads, hs.known⟩,
      ⟨hlay, key 1 (by decide), hne', hs.known hne, hc, hc'⟩, rfl⟩
  | efim =>
    exact ⟨_, rfl, ⟨hs.layout, hs.grads, hs.known⟩,
      ⟨hlay, key 4 (by decide), hne', hs.known hne, hc, hc'⟩, rfl⟩

/-- Caching under the empirical Fisher matrix. -/
theorem cache_efim {bl w0 : List (List (Row K d))} {st st' : St K d} (hs : Stored bl st)
    (hw : Holds st.ifvp w0) (hlen : w0.length ≤ bl.length) (damping : Option K)
    {D : Data K d} (hD : D.WF) (hne : D.batches ≠ [])
    (hc : D.batches.length = bl.length → D.batches.map List.length = bl.map List.length)
    (hok : cache .efim damping st D = (st', .ok ())) :
    let bl' := D.batches ++ bl.drop D.batches.length
    Stored bl' st' ∧ Ready (bl'.map (List.map
      (preconditioned .efim (damping.getD (1 / 100000)) bl'.flatten))) st' := by
  intro bl'
  obtain ⟨s1, h1, h2, h3, h4, h5, h6⟩ := stored_cache hs hD hne hc
  have hne' : bl' ≠ [] := fun h => hne (List.append_eq_nil_iff.1 h).1
  have hlen' : w0.length ≤ bl'.length := by
    simp only [bl', List.length_append, List.length_drop]
    omega
  unfold cache at hok
  rw [h1] at hok
  simp only at hok
  rcases hp : computePre damping s1 with ⟨s2, e | u⟩
  · rw [hp] at hok
    simp at hok
  · rw [hp] at hok
    simp only at hok
    unfold computePre at hp
    simp only [sync_eq h2.layout hne' (h2.known hne')] at hp
    rw [if_neg (by rw [h2.known hne']; simp)] at hp
    have hs2 := (Prod.ext_iff.1 hp).1
    have hok2 := (Prod.ext_iff.1 hp).2
    simp only at hs2 hok2
    have hperm := holds_flatten h2.grads
    obtain ⟨-, -, hP⟩ := C56_value damping (g := 4) (by decide) h2.grads.nodup s1.pre
    have hP := hP hok2
    have hS2 : Stored bl' s2 := by
      rw [← hs2]
      exact ⟨h2.layout, h2.grads, h2.known⟩
    obtain ⟨s3, g1, g2, g3, g4⟩ := ready_ifvp hS2 hne' (by rw [← hs2]; exact h5)
      (by rw [← hs2]; exact h6) (w0 := w0) (by rw [← hs2]; change Holds s1.ifvp w0; rw [h4]; exact hw)
      hlen' .efim
    rw [g1] at hok
    have : s3 = st' := (Prod.ext_iff.1 hok).1
    subst this
    refine ⟨g2, ?_⟩
    simp only at g3
    have e : bl'.map (List.map (applyPre s2.pre)) = bl'.map (List.map
        (preconditioned .efim (damping.getD (1 / 100000)) bl'.flatten)) := by
      apply List.map_congr_left
      intro b hb
      apply List.map_congr_left
      intro r hr
      funext l
      by_cases hdl : d l = 0
      · funext i
        exact absurd i.2 (by omega)
      · have hmem : r ∈ bl'.flatten := List.mem_flatten.2 ⟨b, hb, hr⟩
        have hmem' : r ∈ s1.grads.flatMap Prod.snd := hperm.mem_iff.2 hmem
        obtain ⟨P, hP1, hP2⟩ := hP l ⟨hdl, List.ne_nil_of_mem hmem'⟩
        rw [damped_perm _ _ hperm] at hP2
        have hP3 : P = (damped (damping.getD (1 / 100000)) l bl'.flatten)⁻¹ :=
          (Matrix.inv_eq_left_inv hP2).symm
        unfold applyPre applyLayer preconditioned
        rw [← hs2]
        simp only [hP1, hP3]
    rw [e] at g3
    exact g3

end Verif.BlockIF
