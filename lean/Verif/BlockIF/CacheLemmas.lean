import Verif.BlockIF.MetaProps
import Verif.BlockIF.PreProps

/-!
# What caching leaves behind: metadata layout, stored gradients, preconditioned gradients
-/

namespace Verif.BlockIF

open Verif

variable {K : Type} {L : ℕ} {d : Fin L → ℕ}

/-- A loader whose batches have the sizes PyTorch gives them. -/
structure Data.WF (D : Data K d) : Prop where
  real : D.spec.Real
  length : D.batches.length = D.spec.batches
  sizes : ∀ k b, D.batches[k]? = some b → (b.length : ℤ) = D.spec.count k

/-- Number of batches PyTorch makes of `n` samples. -/
def batchCount (bs : ℕ) (dropLast : Bool) (n : ℕ) : ℕ :=
  if dropLast then n / bs else (n + bs - 1) / bs

/-- The loader over a list of samples (given by their compressed gradients). -/
def Data.of (bs : ℕ) (dropLast : Bool) (data : List (Row K d)) : Data K d :=
  ⟨⟨batchCount bs dropLast data.length, bs, data.length, dropLast, true⟩,
    (List.range (batchCount bs dropLast data.length)).map (batchAt bs data)⟩

theorem of_wf {bs : ℕ} (hbs : 0 < bs) (dl : Bool) (data : List (Row K d)) :
    (Data.of bs dl data).WF := by
  have hreal : (Data.of bs dl data).spec.Real := ⟨hbs, rfl, rfl⟩
  refine ⟨hreal, by simp [Data.of], ?_⟩
  intro k b hb
  have hk : k < batchCount bs dl data.length := by
    by_contra hk
    rw [List.getElem?_eq_none (by simp [Data.of]; omega)] at hb
    cases hb
  have hb' : b = batchAt bs data k := by
    simp only [Data.of, List.getElem?_map, List.getElem?_range hk] at hb
    exact (Option.some.inj hb).symm
  have h1 := count_real hreal (k := k) hk
  have h2 := start_real hreal (k := k) hk
  change ((k : ℤ) * (bs : ℤ)) + _ = min (((k + 1) * bs : ℕ) : ℤ) (data.length : ℤ) at h1
  change k * bs ≤ data.length at h2
  rw [hb', length_batchAt]
  have h3 : (k + 1) * bs = k * bs + bs := by ring
  rw [h3] at h1
  push_cast at h1 ⊢
  rw [Nat.cast_sub h2]
  push_cast
  rw [min_def] at h1 ⊢
  split_ifs at h1 ⊢ <;> linarith

theorem of_flatten (bs : ℕ) (dl : Bool) (data : List (Row K d)) :
    (Data.of bs dl data).batches.flatten = data.take (batchCount bs dl data.length * bs) :=
  flatten_range_batchAt _ _ _

/-- Without `drop_last` the loader yields all samples. -/
theorem of_flatten_all {bs : ℕ} (hbs : 0 < bs) (data : List (Row K d)) :
    (Data.of bs false data).batches.flatten = data := flatten_batches bs hbs data

/-- The metadata describes the batches `bl`, one after the other. -/
structure Layout {R : Type} (bl : List (List R)) (m : Meta) : Prop where
  keys : PyDict.keys m.info = List.range bl.length
  get : ∀ k b, bl[k]? = some b →
    PyDict.get? m.info k = some ((b.length : ℤ), ((bl.take k).flatten.length : ℤ))
  total : m.total = (bl.flatten.length : ℤ)
  pending : m.pending = []

theorem sum_sizes {R : Type} (bl : List (List R)) (f : ℕ → ℤ)
    (hf : ∀ k b, bl[k]? = some b → f k = b.length) (k : ℕ) (hk : k ≤ bl.length) :
    ((List.range k).map f).sum = ((bl.take k).flatten.length : ℤ) := by
  induction k with
  | zero => simp
  | succ k ih =>
    have hk' : k < bl.length := by omega
    rw [List.range_succ, List.map_append, List.sum_append, ih (by omega), List.take_add_one,
      List.flatten_append, List.length_append, List.getElem?_eq_getElem hk']
    simp [hf k _ (List.getElem?_eq_getElem hk')]

theorem layout_save {R : Type} {bl : List (List R)} {m : Meta} (hp : m.pending = [])
    (hn : (PyDict.keys m.info).Nodup) (hk : ∀ k, k ∈ PyDict.keys m.info ↔ k < bl.length)
    (hc : ∀ k b, bl[k]? = some b → countOf m.info k = b.length) : Layout bl m.save := by
  have hperm : (PyDict.keys m.info).Perm (List.range bl.length) :=
    (List.perm_ext_iff_of_nodup hn List.nodup_range).2 fun k => by rw [hk, List.mem_range]
  refine ⟨?_, ?_, ?_, rfl⟩
  · rw [save_keys, flush_of_empty hp]
    have h1 : (sorted (PyDict.keys m.info)).Perm (List.range bl.length) :=
      (sorted_perm _).trans hperm
    exact h1.eq_of_pairwise (fun a b _ _ h1 h2 => absurd h1 (lt_asymm h2)) (sorted_lt hn)
      List.pairwise_lt_range
  · intro k b hb
    have hk' : k < bl.length := (List.getElem?_eq_some_iff.1 hb).1
    rw [save_get hn k (by rw [flush_of_empty hp, hk]; exact hk'), flush_of_empty hp, hc k b hb]
    rw [below_perm hperm]
    unfold below
    rw [filter_range_lt _ _ hk'.le, sum_sizes bl _ hc k hk'.le]
  · rw [save_total, flush_of_empty hp, (hperm.map _).sum_eq, sum_sizes bl _ hc _ le_rfl,
      List.take_length]

theorem layout_count {R : Type} {bl : List (List R)} {m : Meta} (h : Layout bl m) :
    ∀ k b, bl[k]? = some b → countOf m.info k = b.length := by
  intro k b hb
  unfold countOf
  rw [h.get k b hb]
  rfl

theorem layout_nodup {R : Type} {bl : List (List R)} {m : Meta} (h : Layout bl m) :
    (PyDict.keys m.info).Nodup := by rw [h.keys]; exact List.nodup_range

theorem layout_length {R : Type} {bl : List (List R)} {m : Meta} (h : Layout bl m) :
    m.info.length = bl.length := by
  have := congrArg List.length h.keys
  simpa [PyDict.keys] using this

theorem layout_mapping {R : Type} {bl : List (List R)} {m : Meta} (h : Layout bl m) (k : ℕ) :
    PyDict.get? m.mapping k = bl[k]?.map fun b =>
      (((bl.take k).flatten.length : ℤ), ((bl.take k).flatten.length : ℤ) + b.length) := by
  rw [mapping_get, flush_of_empty h.pending]
  rcases hb : bl[k]? with _ | b
  · rw [(PyDict.get?_eq_none _ _).2]
    · rfl
    · rw [h.keys, List.mem_range]
      rw [List.getElem?_eq_none_iff] at hb
      omega
  · rw [h.get k b hb]; rfl

theorem layout_dims {R : Type} {bl : List (List R)} {m : Meta} (h : Layout bl m) (ds : List ℕ) :
    Layout bl (m.setDims ds) := ⟨h.keys, h.get, h.total, h.pending⟩

theorem layout_resave {R : Type} {bl : List (List R)} {m : Meta} (h : Layout bl m) :
    Layout bl m.save :=
  layout_save h.pending (layout_nodup h) (fun k => by rw [h.keys, List.mem_range]) (layout_count h)

theorem layout_add {R : Type} {bl : List (List R)} {m : Meta} (h : Layout bl m) (h0 : bl ≠ [])
    (n : ℤ) : m.addBatchInfo 0 n = m := by
  unfold Meta.addBatchInfo
  rcases bl with _ | ⟨b, bl⟩
  · exact absurd rfl h0
  · rw [if_pos (by rw [h.get 0 b rfl]; rfl)]

/-- Initialising with a loader: the batches of the loader replace the recorded ones, recorded batches
of higher index stay.  (If the numbers of batches agree nothing changes, so the sizes must agree.) -/
theorem layout_initialize {bl : List (List (Row K d))} {m : Meta} (h : Layout bl m)
    {D : Data K d} (hD : D.WF)
    (hs : D.batches.length = bl.length → D.batches.map List.length = bl.map List.length) :
    Layout (D.batches ++ bl.drop D.batches.length) (m.initialize D.spec) := by
  by_cases hl : m.info.length = D.spec.batches
  · have hl' : D.batches.length = bl.length := by rw [hD.length, ← hl, layout_length h]
    rw [C58_kept _ _ hl, hl', List.drop_length, List.append_nil]
    have hs' := hs hl'
    refine ⟨by rw [h.keys, hl'], ?_, ?_, h.pending⟩
    · intro k b hb
      have hk : k < bl.length := by
        rw [← hl']; exact (List.getElem?_eq_some_iff.1 hb).1
      have h1 : ((D.batches.map List.length)[k]? : Option ℕ) = some b.length := by
        rw [List.getElem?_map, hb]; rfl
      rw [hs', List.getElem?_map, List.getElem?_eq_getElem hk] at h1
      have h2 : bl[k].length = b.length := by simpa using h1
      rw [h.get k bl[k] (List.getElem?_eq_getElem hk), h2]
      simp only [List.length_flatten, List.map_take, hs']
    · rw [h.total, List.length_flatten, List.length_flatten, hs']
  · have hi : m.initialize D.spec = Meta.save
        { m with
          info := (fill D.spec (List.range D.spec.batches) m.info 0).1
          total := (fill D.spec (List.range D.spec.batches) m.info 0).2 } := by
      unfold Meta.initialize
      rw [if_neg hl]
    rw [hi]
    refine layout_save (by exact h.pending) (fill_nodup _ _ _ _ (layout_nodup h)) ?_ ?_
    · intro k
      simp only
      rw [fill_mem, h.keys, List.mem_range, List.mem_range, List.length_append, List.length_drop,
        hD.length]
      omega
    · intro k b hb
      simp only
      rw [fill_count]
      by_cases hk : k < D.batches.length
      · rw [List.getElem?_append_left hk] at hb
        rw [if_pos (by rw [List.mem_range, ← hD.length]; exact hk)]
        exact (hD.sizes k b hb).symm
      · rw [List.getElem?_append_right (by omega), List.getElem?_drop,
          show D.batches.length + (k - D.batches.length) = k by omega] at hb
        rw [if_neg (by rw [List.mem_range, ← hD.length]; exact hk)]
        exact layout_count h k b hb

theorem take_flatten_le {R : Type} (bl : List (List R)) {k k' : ℕ} (h : k < k') {b : List R}
    (hb : bl[k]? = some b) : (bl.take k).flatten.length + b.length ≤ (bl.take k').flatten.length := by
  obtain ⟨m, rfl⟩ : ∃ m, k' = k + 1 + m := ⟨k' - (k + 1), by omega⟩
  rw [List.take_add, List.take_add_one, hb]
  simp

theorem layout_disjoint {R : Type} {bl : List (List R)} {m : Meta} (h : Layout bl m) :
    Disjoint' m.mapping := by
  intro k k' r r' hr hr' i h1 h2 h3 h4
  rw [layout_mapping h] at hr hr'
  rcases hb : bl[k]? with _ | b
  · rw [hb] at hr; cases hr
  · rcases hb' : bl[k']? with _ | b'
    · rw [hb'] at hr'; cases hr'
    · rw [hb] at hr
      rw [hb'] at hr'
      cases hr
      cases hr'
      simp only at h1 h2 h3 h4
      rcases lt_trichotomy k k' with hlt | heq | hgt
      · have := take_flatten_le bl hlt hb
        omega
      · exact heq
      · have := take_flatten_le bl hgt hb'
        omega

/-! ### The caching loop -/

/-- A dictionary holding for the first `T` indices the values of a list, and nothing else. -/
structure Holds {R : Type} (c : List (ℕ × R)) (vals : List R) : Prop where
  nodup : (PyDict.keys c).Nodup
  get : ∀ k, PyDict.get? c k = vals[k]?

theorem setLoop_get {R : Type} (vals : List R) (s : ℕ) (c : List (ℕ × R)) (k : ℕ) :
    PyDict.get? ((vals.zipIdx s).foldl (fun g p => PyDict.set p.2 p.1 g) c) k =
      if s ≤ k ∧ k < s + vals.length then vals[k - s]? else PyDict.get? c k := by
  induction vals generalizing s c with
  | nil =>
    rw [if_neg (by rw [List.length_nil]; omega)]
    rfl
  | cons v vals ih =>
    rw [List.zipIdx_cons, List.foldl_cons, ih, PyDict.get?_set]
    simp only [List.length_cons]
    by_cases h1 : s + 1 ≤ k ∧ k < s + 1 + vals.length
    · rw [if_pos h1, if_pos (by omega)]
      rw [show k - s = (k - (s + 1)) + 1 by omega, List.getElem?_cons_succ]
    · rw [if_neg h1]
      by_cases h2 : k = s
      · subst h2
        rw [if_pos rfl, if_pos (by omega)]
        simp
      · rw [if_neg h2, if_neg (by omega)]

theorem setLoop_nodup {R : Type} (vals : List (R × ℕ)) (c : List (ℕ × R))
    (h : (PyDict.keys c).Nodup) :
    (PyDict.keys (vals.foldl (fun g p => PyDict.set p.2 p.1 g) c)).Nodup := by
  induction vals generalizing c with
  | nil => exact h
  | cons v vals ih => exact ih _ (PyDict.nodup_set h _ _)

/-- The fields after the caching loop. -/
theorem cacheLoop (bs : List (List (Row K d) × ℕ)) (st : St K d) :
    let st' := bs.foldl cacheBatch st
    st'.grads = bs.foldl (fun g p => PyDict.set p.2 p.1 g) st.grads ∧
    st'.pre = st.pre ∧ st'.ifvp = st.ifvp ∧ st'.cached = st.cached ∧ st'.comp = st.comp ∧
    (st.known = true → st'.known = true ∧ st'.md = st.md) ∧
    (∀ b bs', st.known = false → bs = b :: bs' → st'.known = true ∧
      st'.md = (st.md.addBatchInfo b.2 b.1.length).setDims (List.ofFn d)) := by
  intro st'
  induction bs generalizing st with
  | nil => exact ⟨rfl, rfl, rfl, rfl, rfl, fun h => ⟨h, rfl⟩, fun _ _ _ h => by cases h⟩
  | cons b bs ih =>
    obtain ⟨h1, h2, h3, h4, h5, h6, -⟩ := ih (cacheBatch st b)
    have hk : (cacheBatch st b).known = true := by
      unfold cacheBatch
      by_cases h : st.known = true
      · simp [h]
      · simp [h]
    have hmd : (st.known = true → (cacheBatch st b).md = st.md) ∧
        (st.known = false → (cacheBatch st b).md =
          (st.md.addBatchInfo b.2 b.1.length).setDims (List.ofFn d)) := by
      unfold cacheBatch
      exact ⟨fun h => by simp [h], fun h => by simp [h]⟩
    have hg : (cacheBatch st b).grads = PyDict.set b.2 b.1 st.grads := by
      unfold cacheBatch
      by_cases h : st.known = true
      · simp [h]
      · simp [h]
    have ho : (cacheBatch st b).pre = st.pre ∧ (cacheBatch st b).ifvp = st.ifvp ∧
        (cacheBatch st b).cached = st.cached ∧ (cacheBatch st b).comp = st.comp := by
      unfold cacheBatch
      by_cases h : st.known = true
      · simp [h]
      · simp [h]
    refine ⟨?_, h2.trans ho.1, h3.trans ho.2.1, h4.trans ho.2.2.1, h5.trans ho.2.2.2, ?_, ?_⟩
    · rw [List.foldl_cons, ← hg]; exact h1
    · intro h; exact ⟨(h6 hk).1, (h6 hk).2.trans (hmd.1 h)⟩
    · intro b' bs' h heq
      cases heq
      exact ⟨(h6 hk).1, (h6 hk).2.trans (hmd.2 h)⟩

/-- The stored state describes the batches `bl`. -/
structure Stored (bl : List (List (Row K d))) (st : St K d) : Prop where
  layout : Layout bl st.md
  grads : Holds st.grads bl
  known : bl ≠ [] → st.known = true

theorem stored_new : Stored [] (St.new K d none) :=
  ⟨⟨rfl, fun k b h => by simp at h, rfl, rfl⟩, ⟨by simp [St.new, PyDict.keys], fun k => rfl⟩,
    fun h => absurd rfl h⟩

/-- Caching a loader: its batches replace the stored ones, stored batches of higher index stay. -/
theorem stored_cache {bl : List (List (Row K d))} {st0 : St K d} (hst : Stored bl st0)
    {D : Data K d} (hD : D.WF) (hne : D.batches ≠ [])
    (hs : D.batches.length = bl.length → D.batches.map List.length = bl.map List.length) :
    ∃ st, cacheGrads st0 D = (st, .ok ()) ∧
      Stored (D.batches ++ bl.drop D.batches.length) st ∧ st.pre = st0.pre ∧ st.ifvp = st0.ifvp ∧
      st.comp = true ∧ st.cached = true := by
  have hlay := layout_initialize hst.layout hD hs
  set bl' := D.batches ++ bl.drop D.batches.length with hbl'
  have hbl'ne : bl' ≠ [] := by
    intro h
    exact hne (List.append_eq_nil_iff.1 h).1
  set st1 : St K d := { st0 with
    cached := true, comp := true, md := st0.md.initialize D.spec } with hst1
  obtain ⟨h1, h2, h3, h4, h5, h6, h7⟩ := cacheLoop D.batches.zipIdx st1
  have hmd : (D.batches.zipIdx.foldl cacheBatch st1).known = true ∧
      Layout bl' (D.batches.zipIdx.foldl cacheBatch st1).md := by
    by_cases hk : st1.known = true
    · exact ⟨(h6 hk).1, by rw [(h6 hk).2]; exact hlay⟩
    · have hk' : st1.known = false := by simpa using hk
      rcases hb : D.batches with _ | ⟨x, xs⟩
      · exact absurd hb hne
      · obtain ⟨h8, h9⟩ := h7 (x, 0) (xs.zipIdx 1) hk' (by rw [hb, List.zipIdx_cons])
        rw [hb] at h8 h9
        refine ⟨h8, ?_⟩
        rw [h9]
        change Layout bl' (((st0.md.initialize D.spec).addBatchInfo 0 _).setDims _)
        rw [layout_add hlay hbl'ne]
        exact layout_dims hlay _
  refine ⟨{ D.batches.zipIdx.foldl cacheBatch st1 with
    md := (D.batches.zipIdx.foldl cacheBatch st1).md.save }, ?_,
    ⟨layout_resave hmd.2, ⟨?_, ?_⟩, fun _ => hmd.1⟩, h2, h3, h5, h4⟩
  · unfold cacheGrads
    simp only
    rw [if_neg (fun h => hne h.2)]
  · simp only
    rw [h1]
    exact setLoop_nodup _ _ hst.grads.nodup
  · intro k
    simp only
    rw [h1, setLoop_get]
    by_cases hk : k < D.batches.length
    · rw [if_pos ⟨by omega, by omega⟩, hbl', List.getElem?_append_left hk]
      rfl
    · rw [if_neg (by omega), hbl', List.getElem?_append_right (by omega), List.getElem?_drop,
        show D.batches.length + (k - D.batches.length) = k by omega]
      exact hst.grads.get k

theorem sync_eq {R : Type} {bl : List (List R)} {st : St K d} (h : Layout bl st.md) (h0 : bl ≠ [])
    (hk : st.known = true) : st.sync = st := by
  unfold St.sync
  have hne : st.md.info ≠ [] := by
    intro hc
    have := layout_length h
    rw [hc] at this
    exact h0 (List.length_eq_zero_iff.1 this.symm)
  simp only [if_neg hne, hk, Bool.true_or]
  rw [← hk]

theorem holds_flatten {R : Type} {c : List (ℕ × List R)} {bl : List (List R)} (h : Holds c bl) :
    (c.flatMap Prod.snd).Perm bl.flatten := by
  have hc : c.Nodup := List.Nodup.of_map _ h.nodup
  have hz : ((bl.zipIdx).map fun p => (p.2, p.1)).Nodup := by
    apply List.Nodup.of_map Prod.fst
    rw [List.map_map]
    have : (Prod.fst ∘ fun p : List R × ℕ => (p.2, p.1)) = Prod.snd := rfl
    rw [this, List.zipIdx_map_snd]
    exact List.nodup_range'
  have hp : c.Perm ((bl.zipIdx).map fun p => (p.2, p.1)) := by
    rw [List.perm_ext_iff_of_nodup hc hz]
    rintro ⟨k, b⟩
    have h1 : (k, b) ∈ c ↔ PyDict.get? c k = some b :=
      ⟨fun hm => PyDict.get?_of_mem h.nodup hm, PyDict.mem_of_get?⟩
    rw [h1, h.get k]
    simp only [List.mem_map, Prod.mk.injEq, Prod.exists]
    constructor
    · intro hb
      exact ⟨b, k, List.mem_zipIdx_iff_getElem?.2 hb, rfl, rfl⟩
    · rintro ⟨b', k', hm, rfl, rfl⟩
      exact List.mem_zipIdx_iff_getElem?.1 hm
  have h2 := hp.flatMap_right Prod.snd
  have h3 : ((bl.zipIdx).map fun p => (p.2, p.1)).flatMap Prod.snd = bl.flatten := by
    rw [List.flatMap_map]
    change bl.zipIdx.flatMap Prod.fst = _
    rw [List.flatMap_def, List.zipIdx_map_fst]
  rw [h3] at h2
  exact h2

/-! ### Preconditioned gradients -/

theorem storeFold_get {R : Type} (known : List ℕ) (f : R → R) (items : List (ℕ × List R))
    (hn : (PyDict.keys items).Nodup) (acc : List (ℕ × List R)) (k : ℕ) :
    PyDict.get? (items.foldl (fun acc p =>
        if p.1 ∈ known then PyDict.set p.1 (p.2.map f) acc else acc) acc) k =
      if k ∈ known then
        match PyDict.get? items k with
        | none => PyDict.get? acc k
        | some rows => some (rows.map f)
      else PyDict.get? acc k := by
  induction items generalizing acc with
  | nil => simp [PyDict.get?]
  | cons p items ih =>
    obtain ⟨a, rows⟩ := p
    unfold PyDict.keys at hn ih
    rw [List.map_cons, List.nodup_cons] at hn
    rw [List.foldl_cons, ih hn.2]
    simp only [PyDict.get?]
    by_cases hka : a = k
    · subst hka
      have hnone : PyDict.get? items a = none := (PyDict.get?_eq_none _ _).2 hn.1
      rw [hnone, if_pos rfl]
      by_cases hk : a ∈ known
      · simp only [if_pos hk]
        rw [PyDict.get?_set, if_pos rfl]
      · simp only [if_neg hk]
    · rw [if_neg hka]
      by_cases hk : k ∈ known
      · simp only [if_pos hk]
        rcases PyDict.get? items k with _ | r
        · simp only
          split_ifs
          · rw [PyDict.get?_set, if_neg (Ne.symm hka)]
          · rfl
        · rfl
      · simp only [if_neg hk]
        split_ifs
        · rw [PyDict.get?_set, if_neg (Ne.symm hka)]
        · rfl

theorem storeFold_nodup {R : Type} (known : List ℕ) (f : R → R) (items : List (ℕ × List R))
    (acc : List (ℕ × List R)) (h : (PyDict.keys acc).Nodup) :
    (PyDict.keys (items.foldl (fun acc p =>
        if p.1 ∈ known then PyDict.set p.1 (p.2.map f) acc else acc) acc)).Nodup := by
  induction items generalizing acc with
  | nil => exact h
  | cons p items ih =>
    rw [List.foldl_cons]
    apply ih
    split_ifs
    · exact PyDict.nodup_set h _ _
    · exact h

theorem sortedItems_get {R : Type} {c : List (ℕ × R)} (h : (PyDict.keys c).Nodup) (k : ℕ) :
    PyDict.get? (sortedItems c) k = PyDict.get? c k := by
  have hp := sortedItems_perm h
  have hn : (PyDict.keys (sortedItems c)).Nodup := (hp.map Prod.fst).nodup_iff.2 h
  rcases hc : PyDict.get? c k with _ | v
  · rw [PyDict.get?_eq_none] at hc ⊢
    exact fun hk => hc ((hp.map Prod.fst).mem_iff.1 hk)
  · exact PyDict.get?_of_mem hn (hp.mem_iff.2 (PyDict.mem_of_get? hc))

theorem sortedItems_nodup {R : Type} {c : List (ℕ × R)} (h : (PyDict.keys c).Nodup) :
    (PyDict.keys (sortedItems c)).Nodup :=
  ((sortedItems_perm h).map Prod.fst).nodup_iff.2 h

end Verif.BlockIF
